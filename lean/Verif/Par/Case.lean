import Verif.Ctl.Case
import Verif.Par.ChartSecond
import Verif.Par.RenumberRun

/-!
# Whole steady cases: initial vector, starting run, main run (C108)

`SteadyFlowCase::execute` as a function of the solution vector. The error flow is that of `Ctl.Case`; here the vector handed from the starting run to the main run is modelled as well.
Not modelled: PETSc error codes and exceptions of the set-up of linear solvers.
-/

namespace FVENS
namespace Par

open Msh Flux FV FV.Disc Ode Ctl

/-! ### Model -/

section model
variable {S : Type} (kd : Kind) (P1 P2 : Prob S) (use : Bool) (cs cm : Conf)

/-- A call of `solve` together with the vector it leaves, src/ode/aodesolver.cpp:135-282, 363-638; `none` after an exception inside the loop (the contents are not specified). -/
def Ends (P : Prob S) (c : Conf) (u : S) (n : ℕ) (out : Ode.Out) (v : Option S) : Prop :=
  if c.maxiter ≤ 0 then n = 0 ∧ out = .nothing ∧ v = some u
  else ∃ o, Loop (Ode.cond c) (body kd P c) (init kd c u) n o ∧ v = o.map Mem.u ∧
    out = match o with
      | none => .numErr
      | some s => kd.finish c s ((fdiv s.resi s.initres).le c.tol)

/-- `SteadyFlowCase::execute_starter`, src/utilities/casesolvers.cpp:225-314: how the starting run ends and the vector it leaves; without a starting run (:290) the vector stays. The
problem `P1` is the first-order one (:231-237) and the configuration `cs` that of :246-250. -/
def Starts (u : S) (e : SolveEnd) (v : Option S) : Prop :=
  if use then ∃ n o, Ends kd P1 cs u n o v ∧ e = .out o else e = .out .nothing ∧ v = some u

/-- The vector `w` with which the main solve begins. -/
def Begins (u w : S) : Prop := ∃ e, Starts kd P1 use cs u e (some w) ∧ starter use e = .normal

/-- `SteadyFlowCase::execute`, src/utilities/casesolvers.cpp:388-422 with `execute_main` (:316-386): the main problem `P2` with the configuration `cm` (:325-329) is solved from what the
starting run left, unless that failed; what the caller sees (`Ctl.execute`) and the vector left. -/
def CaseRun (u : S) (seen : Seen) (v : Option S) : Prop :=
  ∃ e v1, Starts kd P1 use cs u e v1 ∧
    if starter use e = .normal then ∃ w n o, v1 = some w ∧ Ends kd P2 cm w n o v ∧ seen = execute use e (.out o)
    else v = v1 ∧ seen = execute use e (.out .nothing)

end model

/-- `initializeSystemVector`, src/utilities/casesolvers.cpp:52-71: the free stream of the angle of attack in every row. -/
noncomputable def initVec (G : Gas) (aoa : ℝ) : ℕ → St := fun _ => G.freestream aoa

/-! ### Ends of runs and cases -/

section ends
variable {S S' : Type} {kd : Kind} {P P1 P2 : Prob S} {P' P1' P2' : Prob S'} {use : Bool} {c cs cm : Conf}

theorem Ends.solve {u : S} {n : ℕ} {o : Ode.Out} {v : Option S} (h : Ends kd P c u n o v) : Solve kd P c u n o := by
  unfold Ends at h
  unfold Solve
  split_ifs at h ⊢ with hm
  · exact ⟨h.1, h.2.1⟩
  · obtain ⟨o, h1, -, h3⟩ := h
    exact ⟨o, h1, h3⟩

theorem ends_exists (u : S) : ∃ n o v, Ends kd P c u n o v := by
  obtain ⟨⟨n, o, h⟩, -⟩ := C56_terminates kd P c u
  unfold Solve at h
  unfold Ends
  split_ifs at h ⊢ with hm
  · exact ⟨0, _, _, rfl, rfl, rfl⟩
  · obtain ⟨m, h1, h2⟩ := h
    exact ⟨n, o, _, m, h1, rfl, h2⟩

theorem Ends.det {u : S} {n n' : ℕ} {o o' : Ode.Out} {v v' : Option S} (h : Ends kd P c u n o v) (h' : Ends kd P c u n' o' v') : n' = n ∧ o' = o ∧ v' = v := by
  unfold Ends at h h'
  split_ifs at h h' with hm
  · obtain ⟨rfl, rfl, rfl⟩ := h
    exact h'
  · obtain ⟨m, h1, rfl, rfl⟩ := h
    obtain ⟨m', h1', rfl, rfl⟩ := h'
    obtain ⟨rfl, rfl⟩ := h1.det h1'
    exact ⟨rfl, rfl, rfl⟩

/-- A run that does not end with a `Numerical_error` leaves a vector. -/
theorem Ends.some {u : S} {n : ℕ} {o : Ode.Out} {v : Option S} (h : Ends kd P c u n o v) (ho : o ≠ .numErr) : ∃ w, v = some w := by
  unfold Ends at h
  split_ifs at h with hm
  · exact ⟨u, h.2.2⟩
  · obtain ⟨m, -, rfl, h3⟩ := h
    cases m with
    | none => exact absurd h3 ho
    | some m => exact ⟨m.u, rfl⟩

theorem starts_exists (u : S) : ∃ e v, Starts kd P1 use cs u e v := by
  unfold Starts
  split_ifs with hu
  · obtain ⟨n, o, v, h⟩ := ends_exists (kd := kd) (P := P1) (c := cs) u
    exact ⟨_, v, n, o, h, rfl⟩
  · exact ⟨_, _, rfl, rfl⟩

theorem Starts.det {u : S} {e e' : SolveEnd} {v v' : Option S} (h : Starts kd P1 use cs u e v) (h' : Starts kd P1 use cs u e' v') : e' = e ∧ v' = v := by
  unfold Starts at h h'
  split_ifs at h h' with hu
  · obtain ⟨n, o, h1, rfl⟩ := h
    obtain ⟨n', o', h1', rfl⟩ := h'
    obtain ⟨-, rfl, rfl⟩ := h1.det h1'
    exact ⟨rfl, rfl⟩
  · obtain ⟨rfl, rfl⟩ := h
    exact h'

theorem Starts.some {u : S} {e : SolveEnd} {v : Option S} (h : Starts kd P1 use cs u e v) (hn : starter use e = .normal) : ∃ w, v = some w := by
  unfold Starts at h
  split_ifs at h with hu
  · obtain ⟨n, o, h1, rfl⟩ := h
    exact h1.some fun ho => by rw [ho, hu] at hn; simp [starter] at hn
  · exact ⟨u, h.2⟩

/-! ### Simulation -/

/-- Where the first run leaves a vector, the second leaves a related one. -/
def Leads (R : S → S' → Prop) (v : Option S) (v' : Option S') : Prop := ∀ x, v = some x → ∃ x', v' = some x' ∧ R x x'

theorem ends_sim {R : S → S' → Prop} {w : S} {w' : S'} (hw : R w w') {n : ℕ} {o : Ode.Out} {v : Option S} (h : Ends kd P c w n o v) (hs : Solve kd P' c w' n o)
    (hl : ∀ m, 0 < n → Loop (Ode.cond c) (body kd P c) (init kd c w) n (some m) → ∃ m', Loop (Ode.cond c) (body kd P' c) (init kd c w') n (some m') ∧ R m.u m'.u) :
    ∃ v', Ends kd P' c w' n o v' ∧ Leads R v v' := by
  unfold Ends at h ⊢
  unfold Solve at hs
  split_ifs at h hs ⊢ with hm
  · obtain ⟨rfl, rfl, rfl⟩ := h
    exact ⟨_, ⟨rfl, rfl, rfl⟩, fun x hx => by cases hx; exact ⟨w', rfl, hw⟩⟩
  · obtain ⟨m, h1, rfl, h3⟩ := h
    obtain ⟨m', h1', h3'⟩ := hs
    refine ⟨_, ⟨m', h1', rfl, h3'⟩, fun x hx => ?_⟩
    cases m with
    | none => cases hx
    | some m =>
      cases hx
      rcases Nat.eq_zero_or_pos n with rfl | hn
      · cases h1 with
        | done _ =>
          cases h1' with
          | done _ => exact ⟨_, rfl, hw⟩
      · obtain ⟨t, h4, h5⟩ := hl m hn h1
        obtain ⟨-, rfl⟩ := h1'.det h4
        exact ⟨_, rfl, h5⟩

theorem case_sim {R : S → S' → Prop} {u : S} {u' : S'} (h0 : R u u')
    (h1 : use = true → ∀ n o v, Ends kd P1 cs u n o v → ∃ v', Ends kd P1' cs u' n o v' ∧ Leads R v v')
    (h2 : ∀ w w', Begins kd P1 use cs u w → R w w' → ∀ n o v, Ends kd P2 cm w n o v → ∃ v', Ends kd P2' cm w' n o v' ∧ Leads R v v')
    {seen : Seen} {v : Option S} (h : CaseRun kd P1 P2 use cs cm u seen v) : ∃ v', CaseRun kd P1' P2' use cs cm u' seen v' ∧ Leads R v v' := by
  obtain ⟨e, v1, hst, hrest⟩ := h
  have hst' : ∃ v1', Starts kd P1' use cs u' e v1' ∧ Leads R v1 v1' := by
    unfold Starts at hst ⊢
    split_ifs at hst ⊢ with hu
    · obtain ⟨n, o, he, rfl⟩ := hst
      obtain ⟨v', g1, g2⟩ := h1 hu n o v1 he
      exact ⟨v', ⟨n, o, g1, rfl⟩, g2⟩
    · obtain ⟨rfl, rfl⟩ := hst
      exact ⟨_, ⟨rfl, rfl⟩, fun x hx => by cases hx; exact ⟨u', rfl, h0⟩⟩
  obtain ⟨v1', g1, g2⟩ := hst'
  by_cases hn : starter use e = .normal
  · rw [if_pos hn] at hrest
    obtain ⟨w, n, o, rfl, h4, h5⟩ := hrest
    obtain ⟨w', rfl, hw⟩ := g2 w rfl
    obtain ⟨v', h6, h7⟩ := h2 w w' ⟨e, hst, hn⟩ hw n o v h4
    exact ⟨v', ⟨e, _, g1, by rw [if_pos hn]; exact ⟨w', n, o, rfl, h6, h5⟩⟩, h7⟩
  · rw [if_neg hn] at hrest
    obtain ⟨rfl, h5⟩ := hrest
    exact ⟨v1', ⟨e, v1', g1, by rw [if_neg hn]; exact ⟨rfl, h5⟩⟩, g2⟩

/-! ### C108: what a case does -/

/-- C108: every case ends, in exactly one way. -/
theorem C108_ends (kd : Kind) (P1 P2 : Prob S) (use : Bool) (cs cm : Conf) (u : S) :
    ∃ seen v, CaseRun kd P1 P2 use cs cm u seen v ∧ ∀ seen' v', CaseRun kd P1 P2 use cs cm u seen' v' → seen' = seen ∧ v' = v := by
  obtain ⟨e, v1, hst⟩ := starts_exists (kd := kd) (P1 := P1) (use := use) (cs := cs) u
  by_cases hn : starter use e = .normal
  · obtain ⟨w, rfl⟩ := hst.some hn
    obtain ⟨n, o, v, h⟩ := ends_exists (kd := kd) (P := P2) (c := cm) w
    refine ⟨_, v, ⟨e, _, hst, by rw [if_pos hn]; exact ⟨w, n, o, rfl, h, rfl⟩⟩, fun seen' v' h' => ?_⟩
    obtain ⟨e', v1', g1, g2⟩ := h'
    obtain ⟨rfl, rfl⟩ := hst.det g1
    rw [if_pos hn] at g2
    obtain ⟨w', n', o', hw, g3, g4⟩ := g2
    cases hw
    obtain ⟨-, rfl, rfl⟩ := h.det g3
    exact ⟨g4, rfl⟩
  · refine ⟨_, v1, ⟨e, v1, hst, by rw [if_neg hn]; exact ⟨rfl, rfl⟩⟩, fun seen' v' h' => ?_⟩
    obtain ⟨e', v1', g1, g2⟩ := h'
    obtain ⟨rfl, rfl⟩ := hst.det g1
    rw [if_neg hn] at g2
    exact ⟨g2.2, g2.1⟩

/-- C108: a normal return of a case means that the main solve, begun from what the starting run left, brought the norm of the residual down to the required fraction of its first value; the
vector left is that after its last iteration. -/
theorem C108_converged (hkd : kd = forwardEuler ∨ kd = backwardEuler) (ht : 0 ≤ cm.tol) (ht1 : cm.tol < 1) {u : S} {v : Option S} (h : CaseRun kd P1 P2 use cs cm u .normal v) :
    ∃ w n x r0 r, Begins kd P1 use cs u w ∧ v = some x ∧ (∃ m, traj kd P2 cm w n = some m ∧ m.u = x) ∧ 0 < n ∧ (n : ℤ) ≤ cm.maxiter ∧ hist kd P2 cm w 0 = some r0 ∧
      hist kd P2 cm w (n - 1) = some r ∧ Met cm r0 r := by
  obtain ⟨e, v1, hst, hrest⟩ := h
  by_cases hn : starter use e = .normal
  · rw [if_pos hn] at hrest
    obtain ⟨w, n, o, rfl, h4, h5⟩ := hrest
    obtain ⟨ho, -⟩ := (C66_run_partial use e (.out o)).1 h5.symm
    cases ho
    have hs := h4.solve
    have hb : (n : ℤ) ≤ max cm.maxiter 0 := ((C56_terminates kd P2 cm w).2 n _ hs).1
    unfold Ends at h4
    split_ifs at h4 with hm
    · cases h4.2.1
    obtain ⟨m, l1, rfl, l3⟩ := h4
    cases m with
    | none => cases l3
    | some m =>
      obtain ⟨c1, c2, c3⟩ := C56_success P2 ht ht1 (not_le.1 hm) hkd hs
      obtain ⟨r0, r, c4, c5, c6⟩ := c3
      have := (loop_inv (u := w) l1 0 rfl).2
      simp only [zero_add] at this
      have hpos : 0 < n := by
        rcases Nat.eq_zero_or_pos n with rfl | hp
        · cases l1 with
          | done hc => exact absurd (cond_zero ht1 (not_le.1 hm)) hc
        · exact hp
      rw [max_eq_left (not_le.1 hm).le] at hb
      exact ⟨w, n, m.u, r0, r, ⟨e, hst, hn⟩, rfl, ⟨m, this.1, rfl⟩, hpos, hb, c4, c5, c6⟩
  · rw [if_neg hn] at hrest
    have := ((C66_run_partial use e (.out .nothing)).1 hrest.2.symm).1
    cases this

/-- Case `P1'`, `P2'` from `u'` follows case `P1`, `P2` from `u`: it ends in the same way and in no other; the vectors left are related. -/
def Follows (kd : Kind) (P1 P2 : Prob S) (P1' P2' : Prob S') (use : Bool) (cs cm : Conf) (R : S → S' → Prop) (u : S) (u' : S') : Prop :=
  ∀ seen v, CaseRun kd P1 P2 use cs cm u seen v → ∃ v', CaseRun kd P1' P2' use cs cm u' seen v' ∧ Leads R v v' ∧
    ∀ seen' v'', CaseRun kd P1' P2' use cs cm u' seen' v'' → seen' = seen ∧ v'' = v'

/-- At the states visited by the run from `w`, before its last iteration, `Q` holds. -/
def Visits (kd : Kind) (P : Prob S) (c : Conf) (w : S) (Q : Mem S → Prop) : Prop :=
  ∀ k out, Solve kd P c w k out → ∀ j, j < k → ∀ m, traj kd P c w j = some m → Q m

theorem follows_of {R : S → S' → Prop} {u : S} {u' : S'} (h0 : R u u')
    (h1 : use = true → ∀ k out, Solve kd P1 cs u k out → Solve kd P1' cs u' k out ∧ ∀ m, 0 < k → Loop (Ode.cond cs) (body kd P1 cs) (init kd cs u) k (some m) →
      ∃ m', Loop (Ode.cond cs) (body kd P1' cs) (init kd cs u') k (some m') ∧ R m.u m'.u)
    (h2 : ∀ w w', Begins kd P1 use cs u w → R w w' → ∀ k out, Solve kd P2 cm w k out → Solve kd P2' cm w' k out ∧
      ∀ m, 0 < k → Loop (Ode.cond cm) (body kd P2 cm) (init kd cm w) k (some m) → ∃ m', Loop (Ode.cond cm) (body kd P2' cm) (init kd cm w') k (some m') ∧ R m.u m'.u) :
    Follows kd P1 P2 P1' P2' use cs cm R u u' := by
  intro seen v h
  obtain ⟨v', h3, h4⟩ := case_sim (P1' := P1') (P2' := P2') h0 (fun hu n o v he => ends_sim h0 he (h1 hu n o he.solve).1 (h1 hu n o he.solve).2)
    (fun w w' hb hw n o v he => ends_sim hw he (h2 w w' hb hw n o he.solve).1 (h2 w w' hb hw n o he.solve).2) h
  obtain ⟨s0, v0, h5, h6⟩ := C108_ends kd P1' P2' use cs cm u'
  obtain ⟨rfl, rfl⟩ := h6 _ _ h3
  exact ⟨v', h3, h4, h6⟩

end ends
end Par
end FVENS
