import Verif.Par.CaseRuns

/-!
# Whole steady cases with van Leer's flux; concrete cases (C108)

Here the hypotheses on visited states of `CaseRuns` follow from the options.
-/

namespace FVENS
namespace Par

open Msh Flux FV FV.Disc Ode Ctl

/-- Markers whose ghost states have positive density and pressure: slip walls, far field, inflow-outflow, extrapolation, walls at rest without heat flux. -/
def SafeMark (c : BC.Config) : Prop :=
  c.kind = .slipWall ∨ c.kind = .farfield ∨ c.kind = .inflowOutflow ∨ c.kind = .extrapolation ∨ c.kind = .adiabaticWall ∧ ∃ l, c.vals = 0 :: l

theorem mkObj_safe {G : Gas} {ui : St} (hui : Adm G ui) (hM : 0 < G.Minf) {c : BC.Config} (hc : SafeMark c) : ∃ o, BC.mkObj ui c = .ok o ∧ SafeBc G o := by
  rcases hc with h | h | h | h | ⟨h, l, hl⟩ <;> unfold BC.mkObj <;> rw [h]
  · exact ⟨_, rfl, trivial⟩
  · exact ⟨_, rfl, hui⟩
  · exact ⟨_, rfl, hui, hM⟩
  · exact ⟨_, rfl, trivial⟩
  · exact ⟨.adiabatic 0, by rw [hl], rfl⟩

theorem mkAll_safe {G : Gas} {ui : St} (hui : Adm G ui) (hM : 0 < G.Minf) (l : List BC.Config) (hl : ∀ c ∈ l, SafeMark c) : ∀ b0 : ℤ → Option BC.Obj, ∃ b, BC.mkAll ui b0 l = .ok b ∧
    ∀ t, ((∃ o, b0 t = some o ∧ SafeBc G o) ∨ ∃ c ∈ l, c.tag = t) → ∃ o, b t = some o ∧ SafeBc G o := by
  induction l with
  | nil => intro b0; exact ⟨b0, rfl, fun t ht => ht.resolve_right (by rintro ⟨c, hc, -⟩; cases hc)⟩
  | cons c l ih =>
    intro b0
    obtain ⟨o, ho, hs⟩ := mkObj_safe hui hM (hl c List.mem_cons_self)
    obtain ⟨b, h1, h2⟩ := ih (fun c hc => hl c (List.mem_cons_of_mem _ hc)) (fun t => if t = c.tag then some o else b0 t)
    refine ⟨b, by rw [BC.mkAll, ho]; exact h1, fun t ht => h2 t ?_⟩
    by_cases e : t = c.tag
    · exact .inl ⟨o, if_pos e, hs⟩
    · rcases ht with ⟨o', h0, hs'⟩ | ⟨d, hd, hdt⟩
      · exact .inl ⟨o', by rw [if_neg e]; exact h0, hs'⟩
      · rcases List.mem_cons.1 hd with rfl | hd
        · exact absurd hdt.symm e
        · exact .inr ⟨d, hd, hdt⟩

section positive
variable {O : Opts} (hsafe : ∀ c ∈ O.bcs, SafeMark c) {m : Mesh} {s : FState} (hc : Conforming m) (hz : NoZeroFace m) (ht : topological m = .ok s) (hn : m.nconnface = 0)
  (hcov : ∀ k, k < m.nbface → ∃ c ∈ O.bcs, c.tag = m.btag k 0) (hg : 4 ≤ 3 * O.gas.g) (h3 : O.gas.g ≤ 3) (hM : 0 < O.gas.Minf) (hV : O.viscous = false) (hv : O.scheme = .vanLeer)
  (har : ∀ i, i < m.nelem → 0 < (area m i).getD 0) {cs cm : Conf} {use : Bool} (hcs : use = true → 0 ≤ cs.cflinit ∧ cs.cflinit ≤ 1 ∧ cs.tol < 1) (hcm : 0 ≤ cm.cflinit ∧ cm.cflinit ≤ 1 ∧ cm.tol < 1)

include hsafe hg hM in
theorem safe_settings : ∃ P, O.settings = .ok P ∧ P.gas = O.gas ∧ P.scheme = O.scheme ∧ P.viscous = O.viscous ∧
    ∀ t, (∃ c ∈ O.bcs, c.tag = t) → ∃ o, P.bc t = some o ∧ SafeBc O.gas o := by
  obtain ⟨b, h1, h2⟩ := mkAll_safe (freestream_adm O.gas (by linarith) hM O.aoa) hM O.bcs hsafe fun _ => none
  refine ⟨⟨O.gas, O.scheme, O.viscous, O.constVisc, b⟩, ?_, rfl, rfl, rfl, fun t h => h2 t (.inr h)⟩
  unfold Opts.settings BC.createFlowBCs
  rw [h1]

variable {P : Settings} (hP : O.settings = .ok P)
include hsafe hcov hg hM hP

theorem safe_bcs : P.gas = O.gas ∧ P.scheme = O.scheme ∧ P.viscous = O.viscous ∧ SafeBcs (P.disc m s 0) := by
  obtain ⟨P0, e, h1, h2, h3, h4⟩ := safe_settings (O := O) hsafe hg hM
  rw [hP] at e; cases e
  exact ⟨h1, h2, h3, fun k hk => by
    obtain ⟨o, a, b⟩ := h4 _ (hcov k hk)
    exact ⟨o, a, by show SafeBc P.gas o; rw [h1]; exact b⟩⟩

include hc hz ht hn h3 hV hv har

theorem safe_run {c : Conf} (h0 : 0 ≤ c.cflinit) (h1 : c.cflinit ≤ 1) {w : ℕ → St} (hw : ∀ i, i < m.nelem → Adm P.gas (w i)) :
    (∀ j, ∃ t, traj forwardEuler (single (P.disc m s 0)) c w j = some t ∧ ∀ i, i < m.nelem → Adm P.gas (t.u i)) ∧
    ∀ k out, Solve forwardEuler (single (P.disc m s 0)) c w k out → out ≠ .numErr := by
  obtain ⟨e1, e2, e3, hb⟩ := safe_bcs (s := s) hsafe hcov hg hM hP
  exact C93_run_partial (D := P.disc m s 0) ⟨hc, hz, ht⟩ (by show P.viscous = _; rw [e3, hV]) (by show 4 ≤ 3 * P.gas.g; rw [e1]; exact hg)
    (by show P.gas.g ≤ 3; rw [e1]; exact h3) (by show P.scheme = _; rw [e2, hv]) hb hn har h0 h1 hw

theorem safe_visits {c : Conf} (h0 : 0 ≤ c.cflinit) (h1 : c.cflinit ≤ 1) {w : ℕ → St} (hw : ∀ i, i < m.nelem → Adm P.gas (w i)) :
    Visits forwardEuler (single (P.disc m s 0)) c w fun t => ∀ i, i < m.nelem → Adm P.gas (t.u i) := fun k out _ j _ t e => by
  obtain ⟨t', e', h⟩ := (safe_run hsafe hc hz ht hn hcov hg h3 hM hV hv har hP h0 h1 hw).1 j
  rw [e] at e'; cases e'
  exact h

theorem safe_ends {c : Conf} (h0 : 0 ≤ c.cflinit) (h1 : c.cflinit ≤ 1) (h5 : c.tol < 1) {w : ℕ → St} (hw : ∀ i, i < m.nelem → Adm P.gas (w i)) {n : ℕ} {o : Ode.Out} {v : Option (ℕ → St)}
    (h : Ends forwardEuler (single (P.disc m s 0)) c w n o v) : (o = .nothing ∨ o = .ok ∨ o = .tolErr) ∧ ∃ x, v = some x ∧ ∀ i, i < m.nelem → Adm P.gas (x i) := by
  obtain ⟨h2, h4⟩ := safe_run hsafe hc hz ht hn hcov hg h3 hM hV hv har hP h0 h1 hw
  have hne := h4 n o h.solve
  unfold Ends at h
  split_ifs at h with hm
  · obtain ⟨-, rfl, rfl⟩ := h
    exact ⟨.inl rfl, w, rfl, hw⟩
  · obtain ⟨t, l1, rfl, l3⟩ := h
    cases t with
    | none => exact absurd l3 hne
    | some t =>
      have := (loop_inv (u := w) l1 0 rfl).2
      simp only [zero_add] at this
      obtain ⟨t', e', hx⟩ := h2 n
      rw [this.1] at e'; cases e'
      refine ⟨?_, t.u, rfl, hx⟩
      have hpos : t.step ≠ 0 := by
        rw [(traj_step this.1).1]
        rintro rfl
        cases this.1
        exact this.2 (cond_zero h5 (not_le.1 hm))
      rw [l3]
      simp only [forwardEuler, if_neg hpos]
      split_ifs <;> simp

theorem safe_starts (hcs : use = true → 0 ≤ cs.cflinit ∧ cs.cflinit ≤ 1 ∧ cs.tol < 1) {e : SolveEnd} {v : Option (ℕ → St)}
    (h : Starts forwardEuler (single (P.disc m s 0)) use cs (initVec O.gas O.aoa) e v) : starter use e = .normal ∧ ∃ x, v = some x ∧ ∀ i, i < m.nelem → Adm P.gas (x i) := by
  obtain ⟨e1, -⟩ := safe_bcs (s := s) hsafe hcov hg hM hP
  have hw : ∀ i, i < m.nelem → Adm P.gas (initVec O.gas O.aoa i) := fun i _ => by rw [e1]; exact freestream_adm O.gas (by linarith) hM O.aoa
  unfold Starts at h
  split_ifs at h with hu
  · obtain ⟨n, o, he, rfl⟩ := h
    obtain ⟨ho, hx⟩ := safe_ends hsafe hc hz ht hn hcov hg h3 hM hV hv har hP (hcs hu).1 (hcs hu).2.1 (hcs hu).2.2 hw he
    refine ⟨?_, hx⟩
    rw [hu]
    rcases ho with rfl | rfl | rfl <;> rfl
  · obtain ⟨rfl, rfl⟩ := h
    exact ⟨by rw [Bool.not_eq_true] at hu; rw [hu]; rfl, _, rfl, hw⟩

include hcs hcm

/-- C108: an explicit first-order case with van Leer's flux, without viscosity and with CFL numbers from 0 to 1 and tolerances below 1, on any mesh whose markers are all of these kinds, either returns normally or
throws a `Tolerance_error`; in both cases the vector left has positive density and pressure in all cells. Missing for the full claim: the other schemes (`C93_cfl_one_refuted`). -/
theorem C108_positive_partial {seen : Seen} {v : Option (ℕ → St)}
    (h : CaseRun forwardEuler (single (P.disc m s 0)) (single (P.disc m s 0)) use cs cm (initVec O.gas O.aoa) seen v) :
    (seen = .normal ∨ seen = .tolErr) ∧ ∃ x, v = some x ∧ ∀ i, i < m.nelem → Adm O.gas (x i) := by
  obtain ⟨e1, -⟩ := safe_bcs (s := s) hsafe hcov hg hM hP
  obtain ⟨e, v1, hst, hrest⟩ := h
  obtain ⟨h1, x, rfl, hx⟩ := safe_starts hsafe hc hz ht hn hcov hg h3 hM hV hv har hP hcs hst
  rw [if_pos h1] at hrest
  obtain ⟨w, n, o, hw, h4, h5⟩ := hrest
  cases hw
  obtain ⟨ho, y, rfl, hy⟩ := safe_ends hsafe hc hz ht hn hcov hg h3 hM hV hv har hP hcm.1 hcm.2.1 hcm.2.2 hx h4
  rw [e1] at hy
  refine ⟨?_, y, rfl, hy⟩
  rw [h5, execute, h1]
  rcases ho with rfl | rfl | rfl <;> simp [mainSolve]

/-- C108: for such a case the hypotheses of `C108_processes_partial` on visited states hold, so the case ends in the same way on any number of processes. Missing as there: assignments that
decrease along the cell numbering or miss interface faces (`C88_refuted`). -/
theorem C108_vanLeer_processes_partial {dist : ℕ → ℕ} {n : ℕ} (hbt : m.nbtag ≤ 4) (hd : ∀ g, g < m.nelem → dist g < n) (hall : AllRegistered m s dist)
    (hmono : ∀ i j, i < j → j < m.nelem → dist i ≤ dist j) :
    Follows forwardEuler (single (P.disc m s 0)) (single (P.disc m s 0)) (several P m s dist n) (several P m s dist n) use cs cm (fun w loc => Represents m s dist loc w)
      (initVec O.gas O.aoa) (fun _ => initVec O.gas O.aoa) := by
  obtain ⟨e1, -, -, hb⟩ := safe_bcs (s := s) hsafe hcov hg hM hP
  have hw : ∀ i, i < m.nelem → Adm P.gas (initVec O.gas O.aoa i) := fun i _ => by rw [e1]; exact freestream_adm O.gas (by linarith) hM O.aoa
  choose S hS _ using fun r => restrict_spec hc hn hbt ht dist r
  choose s' hs' using fun r => sub_topological hc hn hbt ht (hS r)
  have key := C108_processes_partial hc hn hbt ht hd hz hall hmono P hb.ok (by rw [e1]; exact hg) (ord := none) (fun _ => ⟨0, 0, 0, 0⟩) (E := fun _ _ => ⟨0, 0, 0, 0⟩) hS hs'
    (fun _ _ e => by cases e) (use := use) (cs := cs) (cm := cm) O.aoa
    (fun hu => by rw [e1]; rw [e1] at hw; have := safe_visits hsafe hc hz ht hn hcov hg h3 hM hV hv har hP (hcs hu).1 (hcs hu).2.1 (w := initVec O.gas O.aoa) (by rw [e1]; exact hw); rw [e1] at this; exact this)
    (fun w hbeg => by
      obtain ⟨e, hst, -⟩ := hbeg
      rw [e1] at hst
      obtain ⟨-, x, hx, hadm⟩ := safe_starts hsafe hc hz ht hn hcov hg h3 hM hV hv har hP hcs hst
      cases hx
      exact safe_visits hsafe hc hz ht hn hcov hg h3 hM hV hv har hP hcm.1 hcm.2.1 hadm)
  rw [e1] at key
  exact key

/-- C108: the same for the mesh with renumbered cells. -/
theorem C108_vanLeer_renumbered {perm : ℕ → ℕ} (hp : IsPerm m.nelem perm) : ∃ s', topological (reorderCells m perm) = .ok s' ∧
    Follows forwardEuler (single (P.disc m s 0)) (single (P.disc m s 0)) (single (P.disc (reorderCells m perm) s' 0)) (single (P.disc (reorderCells m perm) s' 0)) use cs cm
      (Moved m.nelem perm) (initVec O.gas O.aoa) (initVec O.gas O.aoa) := by
  obtain ⟨e1, -, -, hb⟩ := safe_bcs (s := s) hsafe hcov hg hM hP
  have hw : ∀ i, i < m.nelem → Adm P.gas (initVec O.gas O.aoa i) := fun i _ => by rw [e1]; exact freestream_adm O.gas (by linarith) hM O.aoa
  obtain ⟨n, o, hrun⟩ := (C56_terminates forwardEuler (single (P.disc m s 0)) cm (initVec O.gas O.aoa)).1
  obtain ⟨s', hs', -⟩ := C77_run_partial hp hc hn hz ht P hb.ok (by rw [e1]; exact hg) (w := initVec O.gas O.aoa) (w' := initVec O.gas O.aoa) (fun i _ => rfl) hrun
    (safe_visits hsafe hc hz ht hn hcov hg h3 hM hV hv har hP hcm.1 hcm.2.1 hw n o hrun)
  refine ⟨s', hs', ?_⟩
  have key := C108_renumbered hp hc hn hz ht hs' P hb.ok (by rw [e1]; exact hg) (ord := none) (fun _ => ⟨0, 0, 0, 0⟩) (fun _ => ⟨0, 0, 0, 0⟩) (use := use) (cs := cs) (cm := cm) O.aoa
    (fun hu => by have := safe_visits hsafe hc hz ht hn hcov hg h3 hM hV hv har hP (hcs hu).1 (hcs hu).2.1 hw; rw [← e1] at this; exact this)
    (fun w hbeg => by
      obtain ⟨e, hst, -⟩ := hbeg
      rw [e1] at hst
      obtain ⟨-, x, hx, hadm⟩ := safe_starts hsafe hc hz ht hn hcov hg h3 hM hV hv har hP hcs hst
      cases hx
      exact safe_visits hsafe hc hz ht hn hcov hg h3 hM hV hv har hP hcm.1 hcm.2.1 hadm)
  rw [e1] at key
  exact key

end positive

/-! ### Concrete cases: the square cut by its diagonals in a stream of air -/

/-- A stream of air over the square with one marker, inviscid. -/
noncomputable def squareOpts (sch : Scheme) (kind : BC.Kind) (aoa : ℝ) : Opts := ⟨air, aoa, false, false, sch, [⟨1, kind, []⟩]⟩

theorem square_cov (sch : Scheme) (kind : BC.Kind) (aoa : ℝ) : ∀ k, k < FV.Geo.cross.nbface → ∃ c ∈ (squareOpts sch kind aoa).bcs, c.tag = FV.Geo.cross.btag k 0 := by
  intro k hk
  have h : ∀ k < 4, FV.Geo.cross.btag k 0 = 1 := by decide +kernel
  refine ⟨_, List.mem_singleton.2 rfl, ?_⟩
  rw [h k hk]; rfl

theorem square_areas : ∀ i, i < FV.Geo.cross.nelem → 0 < (area FV.Geo.cross i).getD 0 := fun i hi => by
  have := cross_area (show i < 4 from hi) (air1 (rest 1)) ⟨fun _ _ => none, fun _ _ => none, []⟩
  have e : (area FV.Geo.cross i).getD 0 = 1 / 4 := this
  rw [e]; norm_num

/-- Hypotheses of `C108_positive_partial`, `C108_vanLeer_processes_partial` and `C108_vanLeer_renumbered` are met: the stream set against solid walls all around (so that the state does
change), at any angle of attack, on one process, on two processes and with the cells in reverse order. -/
example (aoa : ℝ) (use : Bool) : ∃ s P, topological FV.Geo.cross = .ok s ∧ (squareOpts .vanLeer .slipWall aoa).settings = .ok P ∧
    (∀ seen v, CaseRun forwardEuler (single (P.disc FV.Geo.cross s 0)) (single (P.disc FV.Geo.cross s 0)) use ⟨1 / 2, 10, 1, 1⟩ ⟨1 / 10, 100, 1 / 2, 1 / 2⟩ (initVec air aoa) seen v →
      (seen = .normal ∨ seen = .tolErr) ∧ ∃ x, v = some x ∧ ∀ i, i < 4 → Adm air (x i)) ∧
    Follows forwardEuler (single (P.disc FV.Geo.cross s 0)) (single (P.disc FV.Geo.cross s 0)) (several P FV.Geo.cross s (fun i => i / 2) 2) (several P FV.Geo.cross s (fun i => i / 2) 2)
      use ⟨1 / 2, 10, 1, 1⟩ ⟨1 / 10, 100, 1 / 2, 1 / 2⟩ (fun w loc => Represents FV.Geo.cross s (fun i => i / 2) loc w) (initVec air aoa) (fun _ => initVec air aoa) ∧
    ∃ s', topological (reorderCells FV.Geo.cross fun i => 3 - i) = .ok s' ∧
      Follows forwardEuler (single (P.disc FV.Geo.cross s 0)) (single (P.disc FV.Geo.cross s 0)) (single (P.disc (reorderCells FV.Geo.cross fun i => 3 - i) s' 0))
        (single (P.disc (reorderCells FV.Geo.cross fun i => 3 - i) s' 0)) use ⟨1 / 2, 10, 1, 1⟩ ⟨1 / 10, 100, 1 / 2, 1 / 2⟩ (Moved 4 fun i => 3 - i) (initVec air aoa) (initVec air aoa) := by
  obtain ⟨s, hs, -⟩ := FV.Geo.cross_topological
  have hne : FV.Geo.cross.nelem = 4 := by decide +kernel
  have hsafe : ∀ c ∈ (squareOpts .vanLeer .slipWall aoa).bcs, SafeMark c := fun c hc => by
    obtain rfl := List.mem_singleton.1 hc
    exact .inl rfl
  have hg : 4 ≤ 3 * (squareOpts .vanLeer .slipWall aoa).gas.g := by norm_num [squareOpts, air]
  have h3 : (squareOpts .vanLeer .slipWall aoa).gas.g ≤ 3 := by norm_num [squareOpts, air]
  have hM : 0 < (squareOpts .vanLeer .slipWall aoa).gas.Minf := by norm_num [squareOpts, air]
  obtain ⟨P, hP, -⟩ := safe_settings (O := squareOpts .vanLeer .slipWall aoa) hsafe hg hM
  have hcs : use = true → 0 ≤ (⟨1 / 2, 10, 1, 1⟩ : Conf).cflinit ∧ (⟨1 / 2, 10, 1, 1⟩ : Conf).cflinit ≤ 1 ∧ (⟨1 / 2, 10, 1, 1⟩ : Conf).tol < 1 := fun _ => by norm_num
  have hcm : 0 ≤ (⟨1 / 10, 100, 1 / 2, 1 / 2⟩ : Conf).cflinit ∧ (⟨1 / 10, 100, 1 / 2, 1 / 2⟩ : Conf).cflinit ≤ 1 ∧ (⟨1 / 10, 100, 1 / 2, 1 / 2⟩ : Conf).tol < 1 := by norm_num
  have hperm : IsPerm FV.Geo.cross.nelem fun i => 3 - i := by
    refine ⟨fun i hi => by omega, fun i j hi hj e => ?_⟩
    have e : 3 - i = 3 - j := e
    omega
  exact ⟨s, P, hs, hP,
    fun seen v h => C108_positive_partial hsafe cross_conforming FV.Geo.cross_nozero hs rfl (square_cov _ _ _) hg h3 hM rfl rfl square_areas hcs hcm hP h,
    C108_vanLeer_processes_partial hsafe cross_conforming FV.Geo.cross_nozero hs rfl (square_cov _ _ _) hg h3 hM rfl rfl square_areas hcs hcm hP (by decide +kernel)
      (fun g hg => by omega) (cross_all hs _) (fun i j h _ => Nat.div_le_div_right h.le),
    C108_vanLeer_renumbered hsafe cross_conforming FV.Geo.cross_nozero hs rfl (square_cov _ _ _) hg h3 hM rfl rfl square_areas hcs hcm hP hperm⟩

/-- Hypotheses of `C108_turned_partial` are met, for second order too: the same walls, mesh turned by any angle, shifted and magnified. -/
example (aoa θ : ℝ) (use : Bool) (cs cm : Conf) (E E' : (ℕ → St) → Disc.Env) : ∃ (T : Similarity) (s : FState) (P P' : Settings), T.c = Real.cos θ ∧ T.s = Real.sin θ ∧ T.L = 2 ∧
    (squareOpts .roe .slipWall aoa).settings = .ok P ∧ ((squareOpts .roe .slipWall aoa).turned T θ).settings = .ok P' ∧
    Follows forwardEuler (single (P.disc FV.Geo.cross s 0)) (solver (P.disc FV.Geo.cross s 0) (evalOf (P.disc FV.Geo.cross s 0) (some (.greenGauss, .linear)) E))
      (single (P'.disc (T.mesh FV.Geo.cross) s 0)) (solver (P'.disc (T.mesh FV.Geo.cross) s 0) (evalOf (P'.disc (T.mesh FV.Geo.cross) s 0) (some (.greenGauss, .linear)) E')) use cs cm
      (fun w w' => w' = fun i => T.st (w i)) (initVec air aoa) (initVec (withRe air (air.Reinf / 2)) (aoa + θ)) := by
  obtain ⟨s, hs, -⟩ := FV.Geo.cross_topological
  have hsafe : ∀ c ∈ (squareOpts .roe .slipWall aoa).bcs, SafeMark c := fun c hc => by
    obtain rfl := List.mem_singleton.1 hc
    exact .inl rfl
  have hg : 4 ≤ 3 * (squareOpts .roe .slipWall aoa).gas.g := by norm_num [squareOpts, air]
  have hM : 0 < (squareOpts .roe .slipWall aoa).gas.Minf := by norm_num [squareOpts, air]
  obtain ⟨P, hP, -⟩ := safe_settings (O := squareOpts .roe .slipWall aoa) hsafe hg hM
  have hb := (safe_bcs (s := s) hsafe (square_cov _ _ _) hg hM hP).2.2.2.ok
  let T : Similarity := ⟨Real.cos θ, Real.sin θ, 2, fun _ => 7, by have := Real.cos_sq_add_sin_sq θ; nlinarith, two_pos⟩
  obtain ⟨P', h1, -, h2⟩ := C108_turned_partial (T := T) (θ := θ) ⟨rfl, rfl⟩ hP cross_conforming FV.Geo.cross_nozero hs rfl (ord := some (.greenGauss, .linear))
    (fun gs R e => by cases e; rfl) E E' (use := use) (cs := cs) (cm := cm) hb
  exact ⟨T, s, P, P', rfl, rfl, rfl, hP, h1, h2⟩

/-- Hypotheses of `C108_uniform` and `C108_uniform_implicit_refuted` are met: far field all around, zero gradients and MUSCL reconstruction. -/
example (aoa : ℝ) (use : Bool) (E : (ℕ → St) → Disc.Env) (relax : St → St → ℝ) (ksp : (ℕ × ℕ → Blk (Fin 4)) → (ℕ → St) → ℕ → St) : ∃ (s : FState) (P : Settings),
    (squareOpts .roe .farfield aoa).settings = .ok P ∧
    (∃ x, CaseRun forwardEuler (single (P.disc FV.Geo.cross s 0)) (solver (P.disc FV.Geo.cross s 0) (evalOf (P.disc FV.Geo.cross s 0) (some (.zero, .muscl)) E)) use
      ⟨1 / 2, 10, 1, 1⟩ ⟨1 / 10, 100, 1, 1⟩ (initVec air aoa) .normal (some x) ∧ ∀ i, i < 4 → x i = air.freestream aoa) ∧
    ∃ v, CaseRun backwardEuler (implicit (P.disc FV.Geo.cross s 0) (roeJac air) relax ksp)
      (solverI (P.disc FV.Geo.cross s 0) (evalOf (P.disc FV.Geo.cross s 0) (some (.zero, .muscl)) E) (roeJac air) relax ksp) use
      ⟨1 / 2, 10, 1, 1⟩ ⟨1 / 10, 100, 1, 1⟩ (initVec air aoa) (if use then .numErr else .tolErr) v := by
  obtain ⟨s, hs, -⟩ := FV.Geo.cross_topological
  have hfar : ∀ c ∈ (squareOpts .roe .farfield aoa).bcs, c.kind = .farfield := fun c hc => by
    obtain rfl := List.mem_singleton.1 hc
    rfl
  have hg : 1 < (squareOpts .roe .farfield aoa).gas.g := by norm_num [squareOpts, air]
  have hM : 0 < (squareOpts .roe .farfield aoa).gas.Minf := by norm_num [squareOpts, air]
  obtain ⟨P, hP, -⟩ := far_settings (O := squareOpts .roe .farfield aoa) hfar
  have hord : ∀ gs R, some (GradScheme.zero, ReconScheme.muscl) = some (gs, R) → Disc.GradOk (P.disc FV.Geo.cross s 0).G gs ∧ Disc.ReconOk R ∧
      ((R = .barthJespersen ∨ ∃ K, R = .venkatakrishnan K) → FV.Geo.cross.nbface = 0) := fun gs R e => by
    cases e
    exact ⟨trivial, trivial, by rintro (h | ⟨K, h⟩) <;> cases h⟩
  have h1 : use = true → 0 ≤ (⟨1 / 2, 10, 1, 1⟩ : Conf).tol ∧ (⟨1 / 2, 10, 1, 1⟩ : Conf).tol < 1 ∧ 1 < (⟨1 / 2, 10, 1, 1⟩ : Conf).maxiter := fun _ => by norm_num
  refine ⟨s, P, hP, ?_, ?_⟩
  · obtain ⟨seen, v, hr, -⟩ := C108_ends forwardEuler (single (P.disc FV.Geo.cross s 0))
      (solver (P.disc FV.Geo.cross s 0) (evalOf (P.disc FV.Geo.cross s 0) (some (.zero, .muscl)) E)) use ⟨1 / 2, 10, 1, 1⟩ ⟨1 / 10, 100, 1, 1⟩ (initVec air aoa)
    obtain ⟨rfl, x, rfl, hx⟩ := C108_uniform hfar cross_conforming FV.Geo.cross_nozero hs rfl (square_cov _ _ _) hg hM hP hord E h1 (by norm_num) (by norm_num) (by norm_num) hr
    exact ⟨x, hr, hx⟩
  · obtain ⟨seen, v, hr, -⟩ := C108_ends backwardEuler (implicit (P.disc FV.Geo.cross s 0) (roeJac air) relax ksp)
      (solverI (P.disc FV.Geo.cross s 0) (evalOf (P.disc FV.Geo.cross s 0) (some (.zero, .muscl)) E) (roeJac air) relax ksp) use ⟨1 / 2, 10, 1, 1⟩ ⟨1 / 10, 100, 1, 1⟩
      (initVec air aoa)
    obtain ⟨-, rfl⟩ := C108_uniform_implicit_refuted hfar cross_conforming FV.Geo.cross_nozero hs rfl (square_cov _ _ _) hg hM hP hord E h1 (by norm_num) (by norm_num) (by norm_num) hr
    exact ⟨v, hr⟩

/-- One iteration at a constant CFL number visits the first state only. -/
theorem visits_one {S : Type} {P : Prob S} {c0 : ℝ} {w : S} {Q : Mem S → Prop}
    (h : nextCfl backwardEuler ⟨1 / 2, 1, c0, c0⟩ (init backwardEuler ⟨1 / 2, 1, c0, c0⟩ w) = c0 → Q (init backwardEuler ⟨1 / 2, 1, c0, c0⟩ w)) :
    Visits backwardEuler P ⟨1 / 2, 1, c0, c0⟩ w Q := by
  intro k out hs j hj t hm
  have := ((C56_terminates backwardEuler P _ w).2 k out hs).1
  have hk : (k : ℤ) ≤ 1 := by simpa using this
  obtain rfl : j = 0 := by omega
  cases hm
  refine h ?_
  have hr : ∀ a b c d e : ℝ, expRamp a a b c d e = a := fun a b c d e => by
    unfold expRamp
    dsimp only
    generalize (if c > 1 then b * c ^ d else b * c ^ e) = y
    split_ifs with h1 h2
    · rfl
    · rfl
    · linarith
  exact hr _ _ _ _ _

/-- Hypotheses of `C108_processes_implicit_partial`, `C108_renumbered_implicit_partial` and `C108_turned_implicit_partial` are met: the same walls, no starting run, one implicit iteration at
a small CFL number, on two processes, with reversed cells, and on a mesh turned by any angle. -/
example (aoa θ : ℝ) (relax : St → St → ℝ) {ksp : (ℕ × ℕ → Blk (Fin 4)) → (ℕ → St) → ℕ → St} (hk : Exact 4 ksp) : ∃ s P c0, 0 < c0 ∧
    topological FV.Geo.cross = .ok s ∧ (squareOpts .llf .slipWall aoa).settings = .ok P ∧
    (∀ ksp', ExactOn FV.Geo.cross s (fun i => i / 2) 2 ksp' →
      Follows backwardEuler (implicit (P.disc FV.Geo.cross s 0) (llfJac air) relax ksp) (implicit (P.disc FV.Geo.cross s 0) (llfJac air) relax ksp)
        (implicits P FV.Geo.cross s (fun i => i / 2) 2 (llfJac air) relax ksp') (implicits P FV.Geo.cross s (fun i => i / 2) 2 (llfJac air) relax ksp') false ⟨1 / 2, 1, c0, c0⟩
        ⟨1 / 2, 1, c0, c0⟩ (fun w loc => Represents FV.Geo.cross s (fun i => i / 2) loc w) (initVec air aoa) (fun _ => initVec air aoa)) ∧
    (∃ s', topological (reorderCells FV.Geo.cross fun i => 3 - i) = .ok s' ∧
      Follows backwardEuler (implicit (P.disc FV.Geo.cross s 0) (llfJac air) relax ksp) (implicit (P.disc FV.Geo.cross s 0) (llfJac air) relax ksp)
        (implicit (P.disc (reorderCells FV.Geo.cross fun i => 3 - i) s' 0) (llfJac air) relax ksp) (implicit (P.disc (reorderCells FV.Geo.cross fun i => 3 - i) s' 0) (llfJac air) relax ksp)
        false ⟨1 / 2, 1, c0, c0⟩ ⟨1 / 2, 1, c0, c0⟩ (Moved 4 fun i => 3 - i) (initVec air aoa) (initVec air aoa)) ∧
    ∃ (T : Similarity) (P' : Settings), T.c = Real.cos θ ∧ T.s = Real.sin θ ∧ ((squareOpts .llf .slipWall aoa).turned T θ).settings = .ok P' ∧
      Follows backwardEuler (implicit (P.disc FV.Geo.cross s 0) (llfJac air) (fun _ _ => 1) ksp) (implicit (P.disc FV.Geo.cross s 0) (llfJac air) (fun _ _ => 1) ksp)
        (implicit (P'.disc (T.mesh FV.Geo.cross) s 0) (llfJac air) (fun _ _ => 1) ksp) (implicit (P'.disc (T.mesh FV.Geo.cross) s 0) (llfJac air) (fun _ _ => 1) ksp) false
        ⟨1 / 2, 1, c0, c0⟩ ⟨1 / 2, 1, c0, c0⟩ (fun w w' => w' = fun i => T.st (w i)) (initVec air aoa) (initVec (withRe air (air.Reinf / 2)) (aoa + θ)) := by
  obtain ⟨s, hs, -⟩ := FV.Geo.cross_topological
  have hne : FV.Geo.cross.nelem = 4 := by decide +kernel
  have hsafe : ∀ c ∈ (squareOpts .llf .slipWall aoa).bcs, SafeMark c := fun c hc => by
    obtain rfl := List.mem_singleton.1 hc
    exact .inl rfl
  have hg : 4 ≤ 3 * (squareOpts .llf .slipWall aoa).gas.g := by norm_num [squareOpts, air]
  have hM : 0 < (squareOpts .llf .slipWall aoa).gas.Minf := by norm_num [squareOpts, air]
  have hP : (squareOpts .llf .slipWall aoa).settings = .ok ⟨air, .llf, false, false, fun t => if t = 1 then some .slip else none⟩ := rfl
  generalize hPe : (⟨air, .llf, false, false, fun t => if t = 1 then some .slip else none⟩ : Settings) = P at hP
  have hgas : P.gas = air := by rw [← hPe]
  have hsb := (safe_bcs (s := s) hsafe (square_cov _ _ _) hg hM hP).2.2.2
  have hb := hsb.ok
  have hbj : (P.disc FV.Geo.cross s 0).BcJOk := fun k hk => by
    have h : ∀ k < 4, FV.Geo.cross.btag k 0 = 1 := by decide +kernel
    refine ⟨.slip, ?_, rfl⟩
    show P.bc (FV.Geo.cross.btag k 0 : ℤ) = _
    rw [h k hk, ← hPe]; rfl
  have hok : (P.disc FV.Geo.cross s 0).G.Ok := ⟨cross_conforming, FV.Geo.cross_nozero, hs⟩
  have hadm : ∀ i, Adm P.gas (initVec air aoa i) := fun i => by rw [hgas]; exact freestream_adm air (by norm_num [air]) (by norm_num [air]) aoa
  have hgo : Disc.GasOk (P.disc FV.Geo.cross s 0) := by
    rw [← hPe]
    exact ⟨by norm_num [Settings.disc, air], by norm_num [Settings.disc, air], by norm_num [Settings.disc, air], by norm_num [Settings.disc, air]⟩
  obtain ⟨c0, hc0, hreg⟩ := regular_small (u := initVec air aoa) hok hgo hb (fun i _ => hadm i) (fun i hi => square_areas i hi) (llfJac air)
  have hbegin : ∀ {P1 : Prob (ℕ → St)} {c : Conf} {w : ℕ → St}, Begins backwardEuler P1 false c (initVec air aoa) w → w = initVec air aoa := by
    rintro P1 c w ⟨e, hst, -⟩
    simp only [Starts] at hst
    exact Option.some.inj hst.2
  have hd : ∀ g, g < FV.Geo.cross.nelem → g / 2 < 2 := fun g hg => by omega
  have hmono : ∀ i j, i < j → j < FV.Geo.cross.nelem → i / 2 ≤ j / 2 := fun i j h _ => Nat.div_le_div_right h.le
  have hperm : IsPerm FV.Geo.cross.nelem fun i => 3 - i := by
    refine ⟨fun i hi => by omega, fun i j hi hj e => ?_⟩
    have e : 3 - i = 3 - j := e
    omega
  have hg4 : 4 ≤ 3 * P.gas.g := by rw [hgas]; norm_num [air]
  rw [← hne] at hk
  have hmain : ∀ rl : St → St → ℝ, ∀ w, Begins backwardEuler (implicit (P.disc FV.Geo.cross s 0) (llfJac air) rl ksp) false ⟨1 / 2, 1, c0, c0⟩ (initVec air aoa) w →
      Visits backwardEuler (implicit (P.disc FV.Geo.cross s 0) (llfJac air) rl ksp) ⟨1 / 2, 1, c0, c0⟩ w fun t => (∀ i, i < FV.Geo.cross.nelem → Adm P.gas (t.u i)) ∧
        MatrixOk (P.disc FV.Geo.cross s 0) (llfJac air) (fun u => (P.disc FV.Geo.cross s 0).residual1 u 0) ⟨1 / 2, 1, c0, c0⟩ t := by
    intro rl w hw
    obtain rfl := hbegin hw
    refine visits_one fun e => ⟨fun i _ => hadm i, fun i j f _ _ _ _ => C83_llf _ _ _ _, fun o ho => ?_⟩
    rw [e]
    exact hreg c0 hc0 le_rfl o ho
  choose S hS _ using fun r => restrict_spec cross_conforming rfl (by decide +kernel) hs (fun i => i / 2) r
  choose s' hs' using fun r => sub_topological cross_conforming rfl (by decide +kernel) hs (hS r)
  have hinit : initVec P.gas aoa = initVec air aoa := by rw [hgas]
  refine ⟨s, P, c0, hc0, hs, hP, fun ksp' hk' => ?_, ?_, ?_⟩
  · have key := C108_processes_implicit_partial cross_conforming rfl (by decide +kernel) hs hd FV.Geo.cross_nozero (cross_all hs _) hmono P hb hg4 (ord := none) (fun _ => ⟨0, 0, 0, 0⟩)
      (E := fun _ _ => ⟨0, 0, 0, 0⟩) hS hs' (fun _ _ e => by cases e) (use := false) (cs := ⟨1 / 2, 1, c0, c0⟩) (cm := ⟨1 / 2, 1, c0, c0⟩) aoa hbj (J := llfJac air) relax hk hk'
      (fun h => by cases h) (by rw [hinit]; exact hmain relax)
    rw [hinit] at key
    rwa [show solversI P FV.Geo.cross s (fun i => i / 2) 2 (rankEvalOf P FV.Geo.cross s (fun i => i / 2) 2 none fun _ _ => ⟨0, 0, 0, 0⟩) (llfJac air) relax ksp' =
      implicits P FV.Geo.cross s (fun i => i / 2) 2 (llfJac air) relax ksp' from solversI_first _ _ _ _ _ _ _ _] at key
  · obtain ⟨s1, hs1⟩ : ∃ s1, topological (reorderCells FV.Geo.cross fun i => 3 - i) = .ok s1 := by
      obtain ⟨n, o, hrun⟩ := (C56_terminates forwardEuler (single (P.disc FV.Geo.cross s 0)) ⟨1 / 2, 0, 1, 1⟩ (initVec air aoa)).1
      have hn0 := ((C56_terminates forwardEuler (single (P.disc FV.Geo.cross s 0)) ⟨1 / 2, 0, 1, 1⟩ (initVec air aoa)).2 n o hrun).1
      obtain ⟨s', hs', -⟩ := C77_run_partial hperm cross_conforming rfl FV.Geo.cross_nozero hs P hb hg4 (w := initVec air aoa) (w' := initVec air aoa) (fun i _ => rfl) hrun
        (fun j hj => by have : (n : ℤ) ≤ 0 := by simpa using hn0
                        omega)
      exact ⟨s', hs'⟩
    refine ⟨s1, hs1, ?_⟩
    have key := C108_renumbered_implicit_partial hperm cross_conforming rfl FV.Geo.cross_nozero hs hs1 P hb hg4 (ord := none) (fun _ => ⟨0, 0, 0, 0⟩) (fun _ => ⟨0, 0, 0, 0⟩)
      (use := false) (cs := ⟨1 / 2, 1, c0, c0⟩) (cm := ⟨1 / 2, 1, c0, c0⟩) aoa hbj (J := llfJac air) relax hk hk (fun h => by cases h) (by rw [hinit]; exact hmain relax)
    rw [hinit] at key
    exact key
  · let T : Similarity := ⟨Real.cos θ, Real.sin θ, 2, fun _ => 7, by have := Real.cos_sq_add_sin_sq θ; nlinarith, two_pos⟩
    obtain ⟨P', h1, -, h2⟩ := C108_turned_implicit_partial (T := T) (θ := θ) ⟨rfl, rfl⟩ hP cross_conforming FV.Geo.cross_nozero hs rfl (ord := none) (fun gs R e => by cases e)
      (fun _ => ⟨0, 0, 0, 0⟩) (fun _ => ⟨0, 0, 0, 0⟩) (use := false) (cs := ⟨1 / 2, 1, c0, c0⟩) (cm := ⟨1 / 2, 1, c0, c0⟩) hbj (J := llfJac air) (J' := llfJac air)
      (by rw [hgas]; exact (T.chart.C104_families rfl).1) (relax := fun _ _ => 1) (relax' := fun _ _ => 1) (fun _ _ _ => rfl) hk hk (.inr rfl) (.inr rfl) (fun h => by cases h)
      (fun w hw => by
        obtain rfl := hbegin hw
        refine visits_one fun e => ⟨⟨fun i _ => hadm i, fun k hk => ?_⟩, fun o ho => ?_⟩
        · have h : ∀ k < 4, FV.Geo.cross.btag k 0 = 1 := by decide +kernel
          have hbc : (P.disc FV.Geo.cross s 0).bc ((P.disc FV.Geo.cross s 0).tag k) = some .slip := by
            show P.bc (FV.Geo.cross.btag k 0 : ℤ) = _
            rw [h k hk, ← hPe]; rfl
          have e1 : (P.disc FV.Geo.cross s 0).bjac k = BC.slipJ := by
            unfold Disc.bjac
            rw [hbc]; rfl
          have e2 := hsb.ghost hok (u := initVec air aoa) (fun j _ => hadm j) hk
          unfold ghosts Disc.bstate at e2
          rw [hbc] at e2
          rw [e1]
          have e3 := (BC.C10_slip (initVec air aoa 0) ((P.disc FV.Geo.cross s 0).G.nrm k) (hadm 0).rho.ne').1
          show Adm _ (BC.slipJ (initVec air aoa 0) _).gs
          rw [e3]
          exact e2
        · rw [e]
          exact hreg c0 hc0 le_rfl o ho)
    exact ⟨T, P', rfl, rfl, h1, h2⟩

end Par
end FVENS
