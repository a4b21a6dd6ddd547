import Verif.FV.SimilarRecon
import Verif.FV.SimilarRun
import Verif.Par.Positive
import Verif.FV.ReconMesh

/-!
# The CFL ramp and the unit of length; examples for C94
-/

namespace FVENS

open Msh FV Flux Par Ode

/-- C94: the CFL number of the second iteration compares the first residual norm with the number 1 (`resiold` starts there, src/ode/aodesolver.cpp:159, 404): it
is the initial value if that norm is at least 1, and has grown if it is smaller. -/
theorem C94_second_cfl {S : Type} {k : Kind} (hk : k = forwardEuler ∨ k = backwardEuler) {P : Prob S} {c : Conf} {u : S} (h0 : 0 < c.cflinit) (h1 : c.cflinit < c.cflfin)
    {r0 r1 : ℝ} (hr : 0 < r0) (hn : P.norm u = some r0) (hn' : P.norm (P.upd c.cflinit u) = some r1) (a b : ℝ) :
    LogEntry k P c u 1 a b ↔ a = (if r0 < 1 then min c.cflfin (c.cflinit * (1 / r0) ^ k.up) else c.cflinit) ∧ b = k.used c a := by
  have e0 : expRamp c.cflinit c.cflfin (k.cfl0 c) (1 / 1) k.up k.down = c.cflinit := by
    rcases hk with rfl | rfl
    · simp [expRamp, forwardEuler, h1.not_gt]
    · simp [expRamp, backwardEuler, h0]
  have e1 : k.used c c.cflinit = c.cflinit := by rcases hk with rfl | rfl <;> rfl
  have hup : 0 < k.up ∧ 0 < k.down := by rcases hk with rfl | rfl <;> norm_num [forwardEuler, backwardEuler]
  have e2 : expRamp c.cflinit c.cflfin c.cflinit (1 / r0) k.up k.down = (if r0 < 1 then min c.cflfin (c.cflinit * (1 / r0) ^ k.up) else c.cflinit) := by
    unfold expRamp
    by_cases h : r0 < 1
    · have hq : 1 < 1 / r0 := by rw [lt_div_iff₀ hr]; linarith
      have : 1 ≤ (1 / r0) ^ k.up := Real.one_le_rpow hq.le hup.1.le
      simp only [gt_iff_lt, hq, if_true, h]
      rw [if_neg (by nlinarith)]
      split_ifs with hh
      · exact (min_eq_left hh.le).symm
      · exact (min_eq_right (not_lt.1 hh)).symm
    · have hq : ¬ 1 < 1 / r0 := by rw [lt_div_iff₀ hr]; linarith
      have : (1 / r0) ^ k.down ≤ 1 := Real.rpow_le_one (by positivity) (not_lt.1 hq) hup.2.le
      simp only [gt_iff_lt, hq, if_false, h]
      split_ifs <;> nlinarith
  have ht : traj k P c u 2 = some ⟨P.upd (k.used c (expRamp c.cflinit c.cflfin c.cflinit (1 / r0) k.up k.down)) (P.upd c.cflinit u), 2, r1, r0, r0,
      expRamp c.cflinit c.cflfin c.cflinit (1 / r0) k.up k.down, [(c.cflinit, c.cflinit),
        (expRamp c.cflinit c.cflfin c.cflinit (1 / r0) k.up k.down, k.used c (expRamp c.cflinit c.cflfin c.cflinit (1 / r0) k.up k.down))]⟩ := by
    simp only [traj, init, Option.bind_some, body, hn, e0, e1, hn']
    simp
  unfold LogEntry
  rw [ht, e2]
  constructor
  · rintro ⟨s, hs, l1, l2⟩
    cases hs
    simp at l1
    exact ⟨l2.symm, by rw [← l1.2, ← l1.1]⟩
  · rintro ⟨rfl, rfl⟩
    exact ⟨_, rfl, rfl, rfl⟩

/-- Scaling only. -/
noncomputable def Similarity.zoom (L : ℝ) (h : 0 < L) : Similarity := ⟨1, 0, L, 0, by norm_num, h⟩

/-- C94 fails for the CFL numbers: on every mesh and from every state whose first residual norm is not zero, there are two units of length such that the CFL number
reported by the explicit steady solver in its second iteration is the initial value for one and larger for the other. (The implicit solver takes its CFL number from
the same ramp and also uses it: `C94_second_cfl`.) -/
theorem C94_cfl_unit_refuted {m : Mesh} {s : FState} (hc : Conforming m) (hz : NoZeroFace m) (ht : topological m = .ok s) (hn0 : m.nconnface = 0) (P : Settings)
    {w : ℕ → St} {c : Conf} (h0 : 0 < c.cflinit) (h1 : c.cflinit < c.cflfin) {r0 r1 : ℝ} (hr : 0 < r0) (hn : (single (P.disc m s 0)).norm w = some r0)
    (hn' : (single (P.disc m s 0)).norm ((single (P.disc m s 0)).upd c.cflinit w) = some r1) :
    ∃ T T' : Similarity, T.c = 1 ∧ T'.c = 1 ∧ ∃ a, c.cflinit < a ∧
      LogEntry forwardEuler (single ((T.settings P (P.gas.Reinf / T.L)).disc (T.mesh m) s 0)) c (fun i => T.st (w i)) 1 c.cflinit c.cflinit ∧
      LogEntry forwardEuler (single ((T'.settings P (P.gas.Reinf / T'.L)).disc (T'.mesh m) s 0)) c (fun i => T'.st (w i)) 1 a c.cflinit := by
  have hsq := Real.sqrt_pos.2 hr
  have hss : Real.sqrt r0 * Real.sqrt r0 = r0 := Real.mul_self_sqrt hr.le
  have key : ∀ T : Similarity, ∀ a b, LogEntry forwardEuler (single ((T.settings P (P.gas.Reinf / T.L)).disc (T.mesh m) s 0)) c (fun i => T.st (w i)) 1 a b ↔
      a = (if T.L * T.L * r0 < 1 then min c.cflfin (c.cflinit * (1 / (T.L * T.L * r0)) ^ (0.3 : ℝ)) else c.cflinit) ∧ b = c.cflinit := fun T a b => by
    have hm := (C94_setup T hc hz ht P (re := P.gas.Reinf / T.L) (fun _ => rfl) (ghost := 0) (ghost' := 0) (fun ic h => by omega)).2
    have hok : (P.disc m s 0).G.Ok := ⟨hc, hz, ht⟩
    have i1 := C94_iteration hm hok hn0 (u := w) (u' := fun i => T.st (w i)) (fun i _ => rfl) c.cflinit
    have i2 := C94_iteration hm hok hn0 i1.2 c.cflinit
    exact C94_second_cfl (.inl rfl) h0 h1 (mul_pos (mul_pos T.pos T.pos) hr) (by rw [i1.1, hn]; rfl) (r1 := T.L * T.L * r1) (by rw [i2.1, hn']; rfl) a b
  refine ⟨.zoom (1 / Real.sqrt r0) (by positivity), .zoom (1 / (2 * Real.sqrt r0)) (by positivity), rfl, rfl, min c.cflfin (c.cflinit * 4 ^ (0.3 : ℝ)), ?_, ?_, ?_⟩
  · refine lt_min h1 ?_
    have : (1 : ℝ) < 4 ^ (0.3 : ℝ) := Real.one_lt_rpow (by norm_num) (by norm_num)
    nlinarith
  · rw [key]
    have e : (Similarity.zoom (1 / Real.sqrt r0) (by positivity)).L * (Similarity.zoom (1 / Real.sqrt r0) (by positivity)).L * r0 = 1 := by
      show 1 / Real.sqrt r0 * (1 / Real.sqrt r0) * r0 = 1
      field_simp; nlinarith
    simp only [e, lt_irrefl, if_false, and_self]
  · rw [key]
    have e : (Similarity.zoom (1 / (2 * Real.sqrt r0)) (by positivity)).L * (Similarity.zoom (1 / (2 * Real.sqrt r0)) (by positivity)).L * r0 = 1 / 4 := by
      show 1 / (2 * Real.sqrt r0) * (1 / (2 * Real.sqrt r0)) * r0 = 1 / 4
      field_simp; nlinarith
    simp only [e]
    norm_num

/-! ### Two squares, turned, scaled and shifted -/

/-- Turn by the angle with cosine 3/5 and sine 4/5, factor 2, shift by (1,-7). -/
noncomputable def turn345 : Similarity := ⟨3 / 5, 4 / 5, 2, ![1, -7], by norm_num, by norm_num⟩

theorem pair_norm (s : FState) (sch : Scheme) (w : ℕ → St) : ∃ r, (single ((airOut sch).disc pair s 0)).norm w = some r := by
  have hb : ((airOut sch).disc pair s 0).BcOk := fun k _ => rfl
  obtain ⟨o, ho⟩ : ∃ o, ((airOut sch).disc pair s 0).residual1 w 0 = some o := ⟨_, by unfold Disc.residual1; rw [if_pos hb]⟩
  have hnn : 0 ≤ energy ((airOut sch).disc pair s 0) o.res := by
    refine Finset.sum_nonneg fun l hl => ?_
    have : l < 2 := Finset.mem_range.1 hl
    rw [show ((airOut sch).disc pair s 0).G.ar l = 1 from pair_area this]
    exact mul_nonneg (mul_self_nonneg _) (by norm_num)
  exact ⟨_, by simp only [single, ho, Option.bind_some, rootOf]; rw [if_pos hnn]⟩

theorem pair_norm_ne {s : FState} (hs : topological pair = .ok s) (hf : s.faces = [⟨0, 2, 0, 1⟩, ⟨1, 3, 1, 2⟩, ⟨1, 4, 2, 5⟩, ⟨1, 5, 5, 4⟩, ⟨0, 6, 4, 3⟩, ⟨0, 7, 3, 0⟩,
    ⟨0, 1, 1, 4⟩]) : ∃ r, 0 < r ∧ (single ((airOut .llf).disc pair s 0)).norm (two cold hot) = some r := by
  obtain ⟨r, hr⟩ := pair_norm s .llf (two cold hot)
  refine ⟨r, lt_of_le_of_ne ((single ((airOut .llf).disc pair s 0)).nonneg _ _ hr) fun h0 => ?_, hr⟩
  have hstep := pair_step hs hf .llf cold_adm hot_adm
  have hb : ((airOut .llf).disc pair s 0).BcOk := fun k _ => rfl
  obtain ⟨o, ho⟩ : ∃ o, ((airOut .llf).disc pair s 0).residual1 (two cold hot) 0 = some o := ⟨_, by unfold Disc.residual1; rw [if_pos hb]⟩
  have hz : o.res 0 3 = 0 := by
    have hsum : energy ((airOut .llf).disc pair s 0) o.res = 0 := by
      simp only [single, ho, Option.bind_some, rootOf] at hr
      split_ifs at hr with hnn
      simp only [Option.some.injEq] at hr
      rw [← h0] at hr
      exact (Real.sqrt_eq_zero hnn).1 hr
    have := (Finset.sum_eq_zero_iff_of_nonneg (fun l hl => by
      have : l < 2 := Finset.mem_range.1 hl
      show 0 ≤ o.res l 3 * o.res l 3 * ((airOut .llf).disc pair s 0).G.ar l
      rw [show ((airOut .llf).disc pair s 0).G.ar l = 1 from pair_area this]
      exact mul_nonneg (mul_self_nonneg _) (by norm_num))).1 hsum 0 (Finset.mem_range.2 (by show 0 < 2; omega))
    rw [show ((airOut .llf).disc pair s 0).G.ar 0 = 1 from pair_area (by omega), mul_one] at this
    exact mul_self_eq_zero.1 this
  have e := congrFun hstep 3
  have hv : ∀ i, Gas.vel cold i = 0 := fun i => by fin_cases i <;> simp [Gas.vel, cold]
  have hfl : llf air cold hot ![1, 0] 3 = - (1 / 2) * 197 * (38809 / 224 - 25 / 14) := by
    have : llfEig (Gas.varsVn cold ![1, 0]) (cSide air cold) (Gas.varsVn hot ![1, 0]) (cSide air hot) = 197 := by
      rw [cold_vn, hot_vn, cold_c, hot_c]; norm_num [llfEig]
    simp only [llf, this, cold_flux, hot_flux]
    have q3 : ∀ a b c d : ℝ, (![a, b, c, d] : St) 3 = d := fun _ _ _ _ => rfl
    simp only [cold, hot, q3]
    norm_num
  have e1 : (single ((airOut .llf).disc pair s 0)).upd 1 (two cold hot) 0 3 = two cold hot 0 3 := by
    simp only [single, ho, euler]
    rw [if_pos (by show 0 < 2; omega), hz, mul_zero, add_zero]
  rw [e1] at e
  simp only [Pi.sub_apply, Pi.smul_apply, smul_eq_mul, Scheme.flux, hfl, cold_flux, hv, cold_c] at e
  have q3 : ∀ a b c d : ℝ, (![a, b, c, d] : St) 3 = d := fun _ _ _ _ => rfl
  simp only [two, if_true, cold, q3] at e
  norm_num at e

/-- Hypotheses of `C94_cfl_unit_refuted` are met by two squares with cold and hot gas. -/
example : ∃ s, topological pair = .ok s ∧ ∃ T T' : Similarity, ∃ a, 1 < a ∧
    LogEntry forwardEuler (single ((T.settings (airOut .llf) ((airOut .llf).gas.Reinf / T.L)).disc (T.mesh pair) s 0)) ⟨1 / 2, 10, 1, 5⟩ (fun i => T.st (two cold hot i)) 1 1 1 ∧
    LogEntry forwardEuler (single ((T'.settings (airOut .llf) ((airOut .llf).gas.Reinf / T'.L)).disc (T'.mesh pair) s 0)) ⟨1 / 2, 10, 1, 5⟩ (fun i => T'.st (two cold hot i)) 1 a 1 := by
  obtain ⟨s, hs, hf⟩ := pair_topological
  obtain ⟨r0, hr, hn⟩ := pair_norm_ne hs hf
  obtain ⟨r1, hn'⟩ := pair_norm s .llf ((single ((airOut .llf).disc pair s 0)).upd 1 (two cold hot))
  obtain ⟨T, T', -, -, a, h1, h2, h3⟩ := C94_cfl_unit_refuted pair_conforming pair_nozero hs rfl (airOut .llf) (c := ⟨1 / 2, 10, 1, 5⟩) (by norm_num) (by norm_num) hr hn hn'
  exact ⟨s, hs, T, T', a, h1, h2, h3⟩

/-- Hypotheses of `C94_setup`, `C94_first_order`, `C94_second_order_partial` and `C94_muscl_refuted` are met: two squares, turned, scaled and shifted, with a viscous
gas (the Reynolds number is halved) and isothermal walls. -/
example (w r : ℕ → St) : ∃ s D D', topological pair = .ok s ∧ topological (turn345.mesh pair) = .ok s ∧ Moved turn345 D D' ∧ D.G.Ok ∧
    (∃ o o', D.residual1 w r = some o ∧ D'.residual1 (fun i => turn345.st (w i)) (fun i => Similarity.scl turn345 (r i)) = some o' ∧ o'.res 0 = Similarity.scl turn345 (o.res 0)) ∧
    (∃ o o', D.residual2 .wls .linear ⟨0, 0, 0, 0⟩ w r = some o ∧
      D'.residual2 .wls .linear ⟨0, 0, 0, 0⟩ (fun i => turn345.st (w i)) (fun i => Similarity.scl turn345 (r i)) = some o' ∧ o'.res 0 = Similarity.scl turn345 (o.res 0)) ∧
    ∃ (u : ℕ → St) (g : ℕ → Gr) (x x' : Bool × ℕ → St), D.recon .muscl u 0 g 0 = some x ∧
      D'.recon .muscl (fun i => turn345.st (u i)) 0 (fun i => turn345.gr (g i)) 0 = some x' ∧ x' (true, 6) ≠ turn345.st (x (true, 6)) := by
  obtain ⟨s, hs, hf⟩ := pair_topological
  let P : Settings := ⟨air, .roe, true, false, fun _ => some (.isothermal 1 2)⟩
  obtain ⟨h1, h2⟩ := C94_setup turn345 pair_conforming pair_nozero hs P (re := air.Reinf / 2) (fun _ => rfl) (ghost := 0) (ghost' := 0) (fun ic h => absurd h (Nat.not_lt_zero _))
  have hok : (P.disc pair s 0).G.Ok := ⟨pair_conforming, pair_nozero, hs⟩
  have f6 : (P.disc pair s 0).G.face 6 = ⟨0, 1, 1, 4⟩ := by show faceAt s.faces 6 = _; rw [hf]; rfl
  have h6 : 6 < (P.disc pair s 0).G.nface := by show 6 < s.faces.length; rw [hf]; decide
  have hb : (P.disc pair s 0).BcOk := fun k _ => rfl
  have hz : ∀ i, turn345.st ((0 : ℕ → St) i) = 0 := fun i => by funext v; fin_cases v <;> simp [Similarity.st, rotS]
  refine ⟨s, _, _, hs, h1, h2, hok, ?_, ?_, h2.C94_muscl_refuted hok rfl rfl h6 ?_ ?_ 0 0 0 0⟩
  · rcases h2.C94_first_order hok (u := w) (u' := fun i => turn345.st (w i)) (fun i _ => rfl) (r := r) (r' := fun i => Similarity.scl turn345 (r i)) (fun i _ => rfl) with ⟨e1, -⟩ | ⟨o, o', e1, e2, -, e4⟩
    · exact absurd e1 (by unfold Disc.residual1; rw [if_pos hb]; simp)
    · exact ⟨o, o', e1, e2, (e4 0 (by show 0 < 2; omega)).1⟩
  · rcases h2.C94_second_order_partial hok .wls (E := ⟨0, 0, 0, 0⟩) (E' := ⟨0, 0, 0, 0⟩) (fun k _ _ _ => (hz k).symm) (fun i a b => absurd b (not_lt.2 a)) (u := w)
      (u' := fun i => turn345.st (w i)) (fun i _ => rfl) (r := r) (r' := fun i => Similarity.scl turn345 (r i)) (fun i _ => rfl) with ⟨e1, -⟩ | ⟨o, o', e1, e2, -, e4⟩
    · obtain ⟨o, ho⟩ := residual2_defined hok (fun k _ => rfl) (gs := .wls) (R := .linear) (show Disc.ReconOk .linear from trivial)
        (fun h => by rcases h with h | ⟨K, h⟩ <;> cases h) ⟨0, 0, 0, 0⟩ w r
      rw [ho] at e1; cases e1
    · exact ⟨o, o', e1, e2, (e4 0 (by show 0 < 2; omega)).1⟩
  · obtain ⟨-, -, -, k4, -⟩ := hok.kind h6
    rw [k4, f6]
    show 1 < 2
    omega
  · intro e
    rw [f6] at e
    have e := congrFun e 0
    have c0 : centre pair 0 0 = centre pair 1 0 := e
    norm_num [centre, forLt, pair, show List.range 4 = [0, 1, 2, 3] from rfl] at c0

end FVENS
