import Verif.Par.Case

/-!
# Whole steady cases on several processes, on renumbered and on turned meshes (C108)

Both runs of a case, from the free stream, with the boundary conditions made from the control file.
-/

namespace FVENS
namespace Par

open Msh Flux FV FV.Disc Ode Ctl

/-! ### Model: the discretisation made from the options -/

/-- Options of the control file which make up the physics and the boundary conditions: `extract_spatial_physics_config`, src/utilities/controlparser.cpp:218-225. -/
structure Opts where
  gas : Gas
  aoa : ℝ
  viscous : Bool
  constVisc : Bool
  scheme : Scheme
  bcs : List BC.Config

/-- `FlowFV_base::FlowFV_base`, src/spatial/flow_spatial.cpp:34-61: the boundary conditions are made with the free stream of the angle of attack. Names of schemes: `Ctl.createFlux`. -/
noncomputable def Opts.settings (O : Opts) : BC.Res Settings :=
  match BC.createFlowBCs (O.gas.freestream O.aoa) O.bcs with
  | .ok bc => .ok ⟨O.gas, O.scheme, O.viscous, O.constVisc, bc⟩
  | .throws => .throws
  | .ub => .ub

/-- Residual of the main problem: first order, or second order with a gradient scheme and a reconstruction (src/spatial/flow_spatial.cpp:527, 722); `E` is what the arrays held before. -/
noncomputable def evalOf (D : Disc) (ord : Option (GradScheme × ReconScheme)) (E : (ℕ → St) → Disc.Env) (u : ℕ → St) : Option Disc.Out :=
  match ord with
  | none => D.residual1 u 0
  | some (gs, R) => D.residual2 gs R (E u) u 0

/-- The same on the ranks. -/
noncomputable def rankEvalOf (P : Settings) (gm : Mesh) (s : FState) (dist : ℕ → ℕ) (n : ℕ) (ord : Option (GradScheme × ReconScheme)) (E : (ℕ → ℕ → St) → ℕ → Disc.Env) :
    (ℕ → ℕ → St) → ℕ → Option (Disc × Disc.Out) :=
  match ord with
  | none => rankEval P gm s dist n
  | some (gs, R) => rankEval2 P gm s dist n gs R E

/-- States at which the main residual is defined and the flux treats both sides of inner faces alike. -/
def MainOk (D : Disc) (ord : Option (GradScheme × ReconScheme)) (E : (ℕ → St) → Disc.Env) (u : ℕ → St) : Prop :=
  match ord with
  | none => ∀ i, i < D.G.m.nelem → Adm D.gas (u i)
  | some _ => ∃ o, evalOf D ord E u = some o ∧ ∀ k, k < D.G.nface → D.G.inner k → D.SwapOk (o.uR k) (o.uL k)

/-- Matrices of the implicit solver at a visited state: Jacobians of the flux from either side agree, and the system is regular. -/
def MatrixOk (D : Disc) (J : St → St → V2 → FJ) (ev : (ℕ → St) → Option Disc.Out) (c : Conf) (t : Mem (ℕ → St)) : Prop :=
  (∀ i j f, i < D.G.m.nelem → j < D.G.m.nelem → f < D.G.m.nnode i → Across D.G.m (i, f) (.cell j) → Mirror J (t.u i) (t.u j) (fNrm (nodeA D.G.m i f) (nodeB D.G.m i f))) ∧
    ∀ o, ev t.u = some o → Regular D.G.m.nelem (sysOne D J t.u o (nextCfl backwardEuler c t))

/-! ### Several processes -/

section processes
variable {gm : Mesh} {s : FState} {dist : ℕ → ℕ} (hc : Conforming gm) (hn : gm.nconnface = 0) (ht : gm.nbtag ≤ 4) (h : topological gm = .ok s) {n : ℕ}
  (hd : ∀ g, g < gm.nelem → dist g < n) (hz : NoZeroFace gm) (hall : AllRegistered gm s dist) (hmono : ∀ i j, i < j → j < gm.nelem → dist i ≤ dist j) (P : Settings)
  (hb : (P.disc gm s 0).BcOk) (hg : 4 ≤ 3 * P.gas.g) {ord : Option (GradScheme × ReconScheme)} (E0 : (ℕ → St) → Disc.Env) {E : (ℕ → ℕ → St) → ℕ → Disc.Env}
  {S : ℕ → Sub} {s' : ℕ → FState} (hS : ∀ r, restrict gm s dist r = .ok (S r)) (hs' : ∀ r, topological (S r).mesh = .ok (s' r))
  (hE : ∀ gs R, ord = some (gs, R) → ∀ loc, Received gm s dist n gs R S (fun r => P.rank gm s dist n r (S r) (s' r)) (fun r => rankArray gm s dist n loc r (S r)) (E loc))
  {use : Bool} {cs cm : Conf} (aoa : ℝ)
include hc hn ht h hd hz hall hmono hb hg hS hs' hE

/-- C108, explicit cases on several processes: from the free stream, starting run and main run of the processes end as those of one process do, for every number of processes, every assignment
of cells that is non-decreasing along the cell numbering and registers all interface faces, every configuration. Missing for the full claim: other assignments (`C88_refuted`). -/
theorem C108_processes_partial
    (hstart : use = true → Visits forwardEuler (single (P.disc gm s 0)) cs (initVec P.gas aoa) fun t => ∀ i, i < gm.nelem → Adm P.gas (t.u i))
    (hmain : ∀ w, Begins forwardEuler (single (P.disc gm s 0)) use cs (initVec P.gas aoa) w →
      Visits forwardEuler (solver (P.disc gm s 0) (evalOf (P.disc gm s 0) ord E0)) cm w fun t => MainOk (P.disc gm s 0) ord E0 t.u) :
    Follows forwardEuler (single (P.disc gm s 0)) (solver (P.disc gm s 0) (evalOf (P.disc gm s 0) ord E0)) (several P gm s dist n)
      (solvers gm s dist n (rankEvalOf P gm s dist n ord E)) use cs cm (fun w loc => Represents gm s dist loc w) (initVec P.gas aoa) (fun _ => initVec P.gas aoa) := by
  refine follows_of (fun r S _ l g _ => rfl) (fun hu k out hrun => ?_) (fun w loc hbeg hl k out hrun => ?_)
  · obtain ⟨k1, -, k3⟩ := C88_run_partial hc hn ht h hz hall hd hmono P hb hg (loc := fun _ => initVec P.gas aoa) (fun r S _ l g _ => rfl) hrun (hstart hu k out hrun)
    exact ⟨k1, fun m _ hm => by obtain ⟨m', l1, l2, -⟩ := k3 m hm; exact ⟨m', l1, l2⟩⟩
  · have hv := hmain w hbeg k out hrun
    cases ord with
    | none =>
      obtain ⟨k1, -, k3⟩ := C88_run_partial hc hn ht h hz hall hd hmono P hb hg hl hrun hv
      exact ⟨k1, fun m _ hm => by obtain ⟨m', l1, l2, -⟩ := k3 m hm; exact ⟨m', l1, l2⟩⟩
    | some x =>
      obtain ⟨gs, R⟩ := x
      obtain ⟨k1, -, k3⟩ := C88_second_order_run_partial hc hn ht h hd hz hall hmono P E0 hS hs' (hE gs R rfl) hl hrun hv
      exact ⟨k1, fun m _ hm => by obtain ⟨m', l1, l2, -⟩ := k3 m hm; exact ⟨m', l1, l2⟩⟩

/-- C108, implicit cases on several processes, with exact linear solvers. Missing for the full claim: other assignments (`C82_refuted`, `C88_refuted`), inexact linear solvers. -/
theorem C108_processes_implicit_partial (hbj : (P.disc gm s 0).BcJOk) {J : St → St → V2 → FJ} (relax : St → St → ℝ) {ksp : (ℕ × ℕ → Blk (Fin 4)) → (ℕ → St) → ℕ → St}
    (hk : Exact gm.nelem ksp) {ksp' : (ℕ × ℕ → Blk (Fin 4)) → (ℕ → ℕ → St) → ℕ → ℕ → St} (hk' : ExactOn gm s dist n ksp')
    (hstart : use = true → Visits backwardEuler (implicit (P.disc gm s 0) J relax ksp) cs (initVec P.gas aoa) fun t => (∀ i, i < gm.nelem → Adm P.gas (t.u i)) ∧
      MatrixOk (P.disc gm s 0) J (fun u => (P.disc gm s 0).residual1 u 0) cs t)
    (hmain : ∀ w, Begins backwardEuler (implicit (P.disc gm s 0) J relax ksp) use cs (initVec P.gas aoa) w →
      Visits backwardEuler (solverI (P.disc gm s 0) (evalOf (P.disc gm s 0) ord E0) J relax ksp) cm w fun t => MainOk (P.disc gm s 0) ord E0 t.u ∧
        MatrixOk (P.disc gm s 0) J (evalOf (P.disc gm s 0) ord E0) cm t) :
    Follows backwardEuler (implicit (P.disc gm s 0) J relax ksp) (solverI (P.disc gm s 0) (evalOf (P.disc gm s 0) ord E0) J relax ksp) (implicits P gm s dist n J relax ksp')
      (solversI P gm s dist n (rankEvalOf P gm s dist n ord E) J relax ksp') use cs cm (fun w loc => Represents gm s dist loc w) (initVec P.gas aoa) (fun _ => initVec P.gas aoa) := by
  refine follows_of (fun r S _ l g _ => rfl) (fun hu k out hrun => ?_) (fun w loc hbeg hl k out hrun => ?_)
  · obtain ⟨k1, -, k3⟩ := C96_run_partial hc hn ht h hz hall hd hmono P hb hg hbj (loc := fun _ => initVec P.gas aoa) (fun r S _ l g _ => rfl) relax hk hk' hrun
      (fun j hj m hm => by obtain ⟨a, b, d⟩ := hstart hu k out hrun j hj m hm; exact ⟨a, b, d⟩)
    exact ⟨k1, fun m _ hm => by obtain ⟨m', l1, l2, -⟩ := k3 m hm; exact ⟨m', l1, l2⟩⟩
  · have hv := hmain w hbeg k out hrun
    cases ord with
    | none =>
      obtain ⟨k1, -, k3⟩ := C96_run_partial hc hn ht h hz hall hd hmono P hb hg hbj hl relax hk hk' hrun (fun j hj m hm => by obtain ⟨a, b, d⟩ := hv j hj m hm; exact ⟨a, b, d⟩)
      rw [show solversI P gm s dist n (rankEvalOf P gm s dist n none E) J relax ksp' = implicits P gm s dist n J relax ksp' from solversI_first P gm s dist n J relax ksp']
      exact ⟨k1, fun m _ hm => by obtain ⟨m', l1, l2, -⟩ := k3 m hm; exact ⟨m', l1, l2⟩⟩
    | some x =>
      obtain ⟨gs, R⟩ := x
      obtain ⟨k1, -, k3⟩ := C96_second_order_run_partial hc hn ht h hd hz hall hmono P hbj E0 hS hs' (hE gs R rfl) hl relax hk hk' hrun
        (fun j hj m hm => by obtain ⟨⟨o, a, a'⟩, b, d⟩ := hv j hj m hm; exact ⟨b, o, a, a', d o a⟩)
      exact ⟨k1, fun m _ hm => by obtain ⟨m', l1, l2, -⟩ := k3 m hm; exact ⟨m', l1, l2⟩⟩

end processes

/-! ### Renumbered meshes -/

section renumbered
variable {m : Mesh} {s s' : FState} {perm : ℕ → ℕ} (hp : IsPerm m.nelem perm) (hc : Conforming m) (hn : m.nconnface = 0) (hz : NoZeroFace m) (h : topological m = .ok s)
  (hs' : topological (reorderCells m perm) = .ok s') (P : Settings) (hb : (P.disc m s 0).BcOk) (hg : 4 ≤ 3 * P.gas.g) {ord : Option (GradScheme × ReconScheme)}
  (E E' : (ℕ → St) → Disc.Env) {use : Bool} {cs cm : Conf} (aoa : ℝ)
include hp hc hn hz h hs' hb hg

/-- C108, explicit cases on a renumbered mesh (as `preprocessMesh` hands it to the case). -/
theorem C108_renumbered
    (hstart : use = true → Visits forwardEuler (single (P.disc m s 0)) cs (initVec P.gas aoa) fun t => ∀ i, i < m.nelem → Adm P.gas (t.u i))
    (hmain : ∀ w, Begins forwardEuler (single (P.disc m s 0)) use cs (initVec P.gas aoa) w →
      Visits forwardEuler (solver (P.disc m s 0) (evalOf (P.disc m s 0) ord E)) cm w fun t => MainOk (P.disc m s 0) ord E t.u) :
    Follows forwardEuler (single (P.disc m s 0)) (solver (P.disc m s 0) (evalOf (P.disc m s 0) ord E)) (single (P.disc (reorderCells m perm) s' 0))
      (solver (P.disc (reorderCells m perm) s' 0) (evalOf (P.disc (reorderCells m perm) s' 0) ord E')) use cs cm (Moved m.nelem perm) (initVec P.gas aoa) (initVec P.gas aoa) := by
  refine follows_of (fun i _ => rfl) (fun hu k out hrun => ?_) (fun w w' hbeg hl k out hrun => ?_)
  · obtain ⟨s1, e1, k1, -, k3⟩ := C77_run_partial hp hc hn hz h P hb hg (w := initVec P.gas aoa) (w' := initVec P.gas aoa) (fun i _ => rfl) hrun (hstart hu k out hrun)
    rw [hs'] at e1; cases e1
    exact ⟨k1, fun m _ hm => by obtain ⟨m', l1, l2, -⟩ := k3 m hm; exact ⟨m', l1, l2⟩⟩
  · have hv := hmain w hbeg k out hrun
    cases ord with
    | none =>
      obtain ⟨s1, e1, k1, -, k3⟩ := C77_run_partial hp hc hn hz h P hb hg hl hrun hv
      rw [hs'] at e1; cases e1
      exact ⟨k1, fun m _ hm => by obtain ⟨m', l1, l2, -⟩ := k3 m hm; exact ⟨m', l1, l2⟩⟩
    | some x =>
      obtain ⟨gs, R⟩ := x
      obtain ⟨s1, e1, k1, -, k3⟩ := C77_second_order_run_partial hp hc hn hz h P E E' hl hrun hv
      rw [hs'] at e1; cases e1
      exact ⟨k1, fun m _ hm => by obtain ⟨m', l1, l2, -⟩ := k3 m hm; exact ⟨m', l1, l2⟩⟩

/-- C108, implicit cases on a renumbered mesh, with exact linear solvers. Missing for the full claim: inexact linear solvers. -/
theorem C108_renumbered_implicit_partial (hbj : (P.disc m s 0).BcJOk) {J : St → St → V2 → FJ} (relax : St → St → ℝ) {ksp ksp' : (ℕ × ℕ → Blk (Fin 4)) → (ℕ → St) → ℕ → St}
    (hk : Exact m.nelem ksp) (hk' : Exact m.nelem ksp')
    (hstart : use = true → Visits backwardEuler (implicit (P.disc m s 0) J relax ksp) cs (initVec P.gas aoa) fun t => (∀ i, i < m.nelem → Adm P.gas (t.u i)) ∧
      MatrixOk (P.disc m s 0) J (fun u => (P.disc m s 0).residual1 u 0) cs t)
    (hmain : ∀ w, Begins backwardEuler (implicit (P.disc m s 0) J relax ksp) use cs (initVec P.gas aoa) w →
      Visits backwardEuler (solverI (P.disc m s 0) (evalOf (P.disc m s 0) ord E) J relax ksp) cm w fun t => MainOk (P.disc m s 0) ord E t.u ∧
        MatrixOk (P.disc m s 0) J (evalOf (P.disc m s 0) ord E) cm t) :
    Follows backwardEuler (implicit (P.disc m s 0) J relax ksp) (solverI (P.disc m s 0) (evalOf (P.disc m s 0) ord E) J relax ksp)
      (implicit (P.disc (reorderCells m perm) s' 0) J relax ksp')
      (solverI (P.disc (reorderCells m perm) s' 0) (evalOf (P.disc (reorderCells m perm) s' 0) ord E') J relax ksp') use cs cm (Moved m.nelem perm) (initVec P.gas aoa)
      (initVec P.gas aoa) := by
  refine follows_of (fun i _ => rfl) (fun hu k out hrun => ?_) (fun w w' hbeg hl k out hrun => ?_)
  · obtain ⟨s1, e1, k1, -, k3⟩ := C77_implicit_run_partial hp hc hn hz h P hb hg hbj relax hk hk' (w := initVec P.gas aoa) (w' := initVec P.gas aoa) (fun i _ => rfl) hrun
      (fun j hj m hm => by obtain ⟨a, b, d⟩ := hstart hu k out hrun j hj m hm; exact ⟨a, b, d⟩)
    rw [hs'] at e1; cases e1
    exact ⟨k1, fun m _ hm => by obtain ⟨m', l1, l2, -⟩ := k3 m hm; exact ⟨m', l1, l2⟩⟩
  · have hv := hmain w hbeg k out hrun
    cases ord with
    | none =>
      obtain ⟨s1, e1, k1, -, k3⟩ := C77_implicit_run_partial hp hc hn hz h P hb hg hbj relax hk hk' hl hrun
        (fun j hj m hm => by obtain ⟨a, b, d⟩ := hv j hj m hm; exact ⟨a, b, d⟩)
      rw [hs'] at e1; cases e1
      exact ⟨k1, fun m _ hm => by obtain ⟨m', l1, l2, -⟩ := k3 m hm; exact ⟨m', l1, l2⟩⟩
    | some x =>
      obtain ⟨gs, R⟩ := x
      obtain ⟨s1, e1, k1, -, k3⟩ := C77_second_order_implicit_run_partial hp hc hn hz h P hbj E E' relax hk hk' hl hrun
        (fun j hj m hm => by obtain ⟨⟨o, a, a'⟩, b, d⟩ := hv j hj m hm; exact ⟨b, o, a, a', d o a⟩)
      rw [hs'] at e1; cases e1
      exact ⟨k1, fun m _ hm => by obtain ⟨m', l1, l2, -⟩ := k3 m hm; exact ⟨m', l1, l2⟩⟩

end renumbered

/-! ### Turned meshes -/

/-- Options for the image of the mesh: the angle of attack is turned along, and the Reynolds number is that of the new unit of length. -/
noncomputable def Opts.turned (O : Opts) (T : Similarity) (θ : ℝ) : Opts := { O with gas := withRe O.gas (O.gas.Reinf / T.L), aoa := O.aoa + θ }

section turned
variable {T : Similarity} {θ : ℝ} (hT : T.c = Real.cos θ ∧ T.s = Real.sin θ)
include hT

/-- The free stream of the turned angle of attack is the turned free stream. -/
theorem freestream_turned (G : Gas) (re aoa : ℝ) : (withRe G re).freestream (aoa + θ) = T.st (G.freestream aoa) := by
  funext v
  fin_cases v <;>
    simp [Gas.freestream, Gas.windVector, withRe, Similarity.st, rotS, hT.1, hT.2, Real.cos_add, Real.sin_add, Gas.energyOfP, Gas.freestreamPressure] <;> ring

omit hT in
theorem mkAll_turned (T : Similarity) (ui : St) (cs : List BC.Config) : ∀ m : ℤ → Option BC.Obj, BC.mkAll (T.st ui) (fun t => (m t).map T.obj) cs =
    match BC.mkAll ui m cs with
    | .ok b => .ok fun t => (b t).map T.obj
    | .throws => .throws
    | .ub => .ub := by
  induction cs with
  | nil => intro m; rfl
  | cons c cs ih =>
    intro m
    have ho : BC.mkObj (T.st ui) c = match BC.mkObj ui c with
        | .ok o => .ok (T.obj o)
        | .throws => .throws
        | .ub => .ub := by
      unfold BC.mkObj
      cases c.kind <;> try rfl
      all_goals rcases c.vals with _ | ⟨a, _ | ⟨b, l⟩⟩ <;> rfl
    unfold BC.mkAll
    rw [ho]
    cases BC.mkObj ui c with
    | throws => rfl
    | ub => rfl
    | ok o =>
      simp only
      rw [← ih]
      congr 1
      funext t
      split_ifs <;> rfl

/-- C108: the options for the turned mesh give the turned boundary conditions. -/
theorem C108_turned_settings (O : Opts) {P : Settings} (hP : O.settings = .ok P) :
    (O.turned T θ).settings = .ok (T.settings P (P.gas.Reinf / T.L)) := by
  unfold Opts.settings at hP ⊢
  simp only [Opts.turned, freestream_turned hT]
  have := mkAll_turned T (O.gas.freestream O.aoa) O.bcs (fun _ => none)
  simp only [Option.map_none] at this
  unfold BC.createFlowBCs at hP ⊢
  rw [this]
  cases hm : BC.mkAll (O.gas.freestream O.aoa) (fun _ => none) O.bcs with
  | throws => rw [hm] at hP; cases hP
  | ub => rw [hm] at hP; cases hP
  | ok b => rw [hm] at hP; cases hP; rfl

variable {O : Opts} {P : Settings} (hP : O.settings = .ok P) {m : Mesh} {s : FState} (hc : Conforming m) (hz : NoZeroFace m) (ht : topological m = .ok s) (hn : m.nconnface = 0)
  {ord : Option (GradScheme × ReconScheme)} (hord : ∀ gs R, ord = some (gs, R) → R = .linear) (E E' : (ℕ → St) → Disc.Env) {use : Bool} {cs cm : Conf}
include hP hc hz ht hn hord

/-- C108, explicit cases on a mesh that is turned, shifted and scaled, with the angle of attack turned along: from the free stream of the new angle, with boundary conditions made from the
same list, starting run and main run end as on the original mesh, and the vector left is the turned one. Missing for the full claim: limiters, WENO and MUSCL, for which it fails
(`C94_muscl_refuted`, `C94_weno_refuted`). -/
theorem C108_turned_partial (hb : (P.disc m s 0).BcOk) : ∃ P', (O.turned T θ).settings = .ok P' ∧ topological (T.mesh m) = .ok s ∧
    Follows forwardEuler (single (P.disc m s 0)) (solver (P.disc m s 0) (evalOf (P.disc m s 0) ord E)) (single (P'.disc (T.mesh m) s 0))
      (solver (P'.disc (T.mesh m) s 0) (evalOf (P'.disc (T.mesh m) s 0) ord E')) use cs cm (fun w w' => w' = fun i => T.st (w i))
      (initVec O.gas O.aoa) (initVec (O.turned T θ).gas (O.turned T θ).aoa) := by
  obtain ⟨ht', hmv⟩ := C94_setup T hc hz ht P (re := P.gas.Reinf / T.L) (fun _ => rfl) (ghost := 0) (ghost' := 0) (fun ic hic => by omega)
  have hok : (P.disc m s 0).G.Ok := ⟨hc, hz, ht⟩
  have hst : ∀ f : ℕ → St, (fun i => T.chart.st (f i)) = fun i => T.st (f i) := fun f => funext fun i => T.chart_st _
  have first : ∀ (c : Conf) (w : ℕ → St) (k : ℕ) (out : Ode.Out), Solve forwardEuler (single (P.disc m s 0)) c w k out →
      Solve forwardEuler (single ((T.settings P (P.gas.Reinf / T.L)).disc (T.mesh m) s 0)) c (fun i => T.st (w i)) k out ∧
      ∀ t, 0 < k → Loop (Ode.cond c) (body forwardEuler (single (P.disc m s 0)) c) (init forwardEuler c w) k (some t) →
        ∃ t', Loop (Ode.cond c) (body forwardEuler (single ((T.settings P (P.gas.Reinf / T.L)).disc (T.mesh m) s 0)) c) (init forwardEuler c fun i => T.st (w i)) k (some t') ∧
          t'.u = fun i => T.st (t.u i) := fun c w k out hrun => by
    have key := (hmv.charted hok).explicit_run (ev := fun u => (P.disc m s 0).residual1 u 0) (ev' := fun u => ((T.settings P (P.gas.Reinf / T.L)).disc (T.mesh m) s 0).residual1 u 0)
      (fun u => hmv.resIm hok hb u) hrun
    simp only [hst] at key
    exact ⟨key.1, fun t _ hl => by obtain ⟨t', l1, l2, -⟩ := key.2.2 t hl; exact ⟨t', l1, l2⟩⟩
  refine ⟨_, C108_turned_settings hT O hP, ht', follows_of ?_ (fun hu k out hrun => ?_) (fun w w' hbeg hl k out hrun => ?_)⟩
  · funext i
    exact freestream_turned hT _ _ _
  · have : initVec (O.turned T θ).gas (O.turned T θ).aoa = fun i => T.st (initVec O.gas O.aoa i) := by funext i; exact freestream_turned hT _ _ _
    rw [this]
    exact first cs _ k out hrun
  · subst hl
    cases ord with
    | none => exact first cm w k out hrun
    | some x =>
      obtain ⟨gs, R⟩ := x
      cases hord gs R rfl
      obtain ⟨k1, -, k3⟩ := C94_second_order_run_partial hok hn hb gs E E' hrun hmv
      exact ⟨k1, fun t _ hl => by obtain ⟨t', l1, l2, -⟩ := k3 t hl; exact ⟨t', l1, l2⟩⟩

/-- C108, implicit cases on such a mesh, with exact linear solvers, without a change of the unit of length or with constant CFL numbers (otherwise the numbers may differ:
`C104_cfl_refuted`). Missing for the full claim besides: inexact linear solvers, relaxed updates (`C104_relax_axes_refuted`), reconstructions other than the unlimited one. -/
theorem C108_turned_implicit_partial (hb : (P.disc m s 0).BcJOk) {J J' : St → St → V2 → FJ} (hJ : T.chart.FamIm P.gas J J') {relax relax' : St → St → ℝ}
    (hrel : ∀ du u, Adm P.gas u → relax' (T.st du) (T.st u) = relax du u) {ksp ksp' : (ℕ × ℕ → Blk (Fin 4)) → (ℕ → St) → ℕ → St} (hk : Exact m.nelem ksp) (hk' : Exact m.nelem ksp')
    (hcs : T.L = 1 ∨ cs.cflinit = cs.cflfin) (hcm : T.L = 1 ∨ cm.cflinit = cm.cflfin)
    (hstart : use = true → Visits backwardEuler (implicit (P.disc m s 0) J relax ksp) cs (initVec O.gas O.aoa) fun t => GoodAt (P.disc m s 0) t.u ∧
      ∀ o, (P.disc m s 0).residual1 t.u 0 = some o → Regular m.nelem (sysOne (P.disc m s 0) J t.u o (nextCfl backwardEuler cs t)))
    (hmain : ∀ w, Begins backwardEuler (implicit (P.disc m s 0) J relax ksp) use cs (initVec O.gas O.aoa) w →
      Visits backwardEuler (solverI (P.disc m s 0) (evalOf (P.disc m s 0) ord E) J relax ksp) cm w fun t => GoodAt (P.disc m s 0) t.u ∧
        ∀ o, evalOf (P.disc m s 0) ord E t.u = some o → Regular m.nelem (sysOne (P.disc m s 0) J t.u o (nextCfl backwardEuler cm t))) :
    ∃ P', (O.turned T θ).settings = .ok P' ∧ topological (T.mesh m) = .ok s ∧
    Follows backwardEuler (implicit (P.disc m s 0) J relax ksp) (solverI (P.disc m s 0) (evalOf (P.disc m s 0) ord E) J relax ksp) (implicit (P'.disc (T.mesh m) s 0) J' relax' ksp')
      (solverI (P'.disc (T.mesh m) s 0) (evalOf (P'.disc (T.mesh m) s 0) ord E') J' relax' ksp') use cs cm (fun w w' => w' = fun i => T.st (w i))
      (initVec O.gas O.aoa) (initVec (O.turned T θ).gas (O.turned T θ).aoa) := by
  obtain ⟨ht', hmv⟩ := C94_setup T hc hz ht P (re := P.gas.Reinf / T.L) (fun _ => rfl) (ghost := 0) (ghost' := 0) (fun ic hic => by omega)
  have hok : (P.disc m s 0).G.Ok := ⟨hc, hz, ht⟩
  refine ⟨_, C108_turned_settings hT O hP, ht', follows_of ?_ (fun hu k out hrun => ?_) (fun w w' hbeg hl k out hrun => ?_)⟩
  · funext i
    exact freestream_turned hT _ _ _
  · have e : initVec (O.turned T θ).gas (O.turned T θ).aoa = fun i => T.st (initVec O.gas O.aoa i) := by funext i; exact freestream_turned hT _ _ _
    rw [e]
    obtain ⟨k1, -, k3⟩ := C104_moved_run_partial hok hn hb hk hk' hrun (hstart hu k out hrun) hmv hJ hrel (hcs.imp id .inl)
    exact ⟨k1, fun t h0 hl => by obtain ⟨t', l1, l2, -⟩ := k3 t h0 hl; exact ⟨t', l1, l2⟩⟩
  · subst hl
    have hv := hmain w hbeg k out hrun
    cases ord with
    | none =>
      obtain ⟨k1, -, k3⟩ := C104_moved_run_partial hok hn hb hk hk' hrun hv hmv hJ hrel (hcm.imp id .inl)
      exact ⟨k1, fun t h0 hl => by obtain ⟨t', l1, l2, -⟩ := k3 t h0 hl; exact ⟨t', l1, l2⟩⟩
    | some x =>
      obtain ⟨gs, R⟩ := x
      cases hord gs R rfl
      obtain ⟨k1, -, k3⟩ := C104_moved_second_order_run_partial hok hn hb hk hk' gs E E' hrun hv hmv hJ hrel (hcm.imp id .inl)
      exact ⟨k1, fun t h0 hl => by obtain ⟨t', l1, l2, -⟩ := k3 t h0 hl; exact ⟨t', l1, l2⟩⟩

end turned

/-! ### Far field all around -/

/-- Markers that are all far field are made into far-field conditions with the free stream. -/
theorem mkAll_farfield (ui : St) (l : List BC.Config) (hl : ∀ c ∈ l, c.kind = .farfield) : ∀ b0 : ℤ → Option BC.Obj, ∃ b, BC.mkAll ui b0 l = .ok b ∧
    ∀ t, (b0 t = some (.farfield ui) ∨ ∃ c ∈ l, c.tag = t) → b t = some (.farfield ui) := by
  induction l with
  | nil => intro b0; exact ⟨b0, rfl, fun t ht => ht.resolve_right (by rintro ⟨c, hc, -⟩; cases hc)⟩
  | cons c l ih =>
    intro b0
    obtain ⟨b, h1, h2⟩ := ih (fun c hc => hl c (List.mem_cons_of_mem _ hc)) (fun t => if t = c.tag then some (.farfield ui) else b0 t)
    have ho : BC.mkObj ui c = .ok (.farfield ui) := by unfold BC.mkObj; rw [hl c List.mem_cons_self]
    refine ⟨b, by rw [BC.mkAll, ho]; exact h1, fun t ht => h2 t ?_⟩
    by_cases e : t = c.tag
    · exact .inl (if_pos e)
    · rcases ht with h0 | ⟨d, hd, hdt⟩
      · exact .inl (by rw [if_neg e]; exact h0)
      · rcases List.mem_cons.1 hd with rfl | hd
        · exact absurd hdt.symm e
        · exact .inr ⟨d, hd, hdt⟩

section uniform
variable {O : Opts} (hfar : ∀ c ∈ O.bcs, c.kind = .farfield) {m : Mesh} {s : FState} (hc : Conforming m) (hz : NoZeroFace m) (ht : topological m = .ok s) (hn : m.nconnface = 0)
  (hcov : ∀ k, k < m.nbface → ∃ c ∈ O.bcs, c.tag = m.btag k 0) (hg : 1 < O.gas.g) (hM : 0 < O.gas.Minf)
include hfar

theorem far_settings : ∃ P, O.settings = .ok P ∧ P.gas = O.gas ∧ ∀ t, (∃ c ∈ O.bcs, c.tag = t) → P.bc t = some (.farfield (O.gas.freestream O.aoa)) := by
  obtain ⟨b, h1, h2⟩ := mkAll_farfield (O.gas.freestream O.aoa) O.bcs hfar fun _ => none
  refine ⟨⟨O.gas, O.scheme, O.viscous, O.constVisc, b⟩, ?_, rfl, fun t h => h2 t (.inr h)⟩
  unfold Opts.settings BC.createFlowBCs
  rw [h1]

include hc hz ht hn hcov hg hM
variable {P : Settings} (hP : O.settings = .ok P) {ord : Option (GradScheme × ReconScheme)}
  (hord : ∀ gs R, ord = some (gs, R) → Disc.GradOk (P.disc m s 0).G gs ∧ Disc.ReconOk R ∧ ((R = .barthJespersen ∨ ∃ K, R = .venkatakrishnan K) → m.nbface = 0))
  (E : (ℕ → St) → Disc.Env)
include hP hord

/-- Main residual of the free stream. -/
theorem uniform_eval {u : ℕ → St} (hu : ∀ i, i < m.nelem → u i = O.gas.freestream O.aoa) :
    ∃ o, evalOf (P.disc m s 0) ord E u = some o ∧ ∀ i, i < m.nelem → o.res i = 0 := by
  obtain ⟨P0, e, hgas, hbc⟩ := far_settings hfar
  rw [hP] at e; cases e
  have hok : (P.disc m s 0).G.Ok := ⟨hc, hz, ht⟩
  have hadm : Adm (P.disc m s 0).gas (O.gas.freestream O.aoa) := by
    show Adm P.gas _
    rw [hgas]; exact freestream_adm O.gas hg hM O.aoa
  have hrows : ∀ i, i < (P.disc m s 0).G.rows → i < m.nelem := fun i hi => by
    have hi : i < m.nelem + m.nconnface := hi
    omega
  have hb : ∀ k, k < (P.disc m s 0).G.m.nbface → (P.disc m s 0).bc ((P.disc m s 0).tag k) = some (.farfield (O.gas.freestream O.aoa)) := fun k hk => hbc _ (hcov k hk)
  cases ord with
  | none => exact Disc.C43_first_order hok hadm hb (fun i hi => hu i (hrows i hi)) 0
  | some x =>
    obtain ⟨gs, R⟩ := x
    obtain ⟨h1, h2, h3⟩ := hord gs R rfl
    have hE : evalOf (P.disc m s 0) (some (gs, R)) E u =
        (P.disc m s 0).residual2 gs R { E u with gg := fun i => if i < m.nelem then 0 else (E u).gg i } u 0 := by
      have e : ∀ a b, (P.disc m s 0).gradients gs a b (E u).gg = (P.disc m s 0).gradients gs a b fun i => if i < m.nelem then 0 else (E u).gg i := fun a b => by
        funext i
        unfold Disc.gradients
        by_cases hi : i < (P.disc m s 0).G.m.nelem
        · rw [if_pos hi, if_pos hi]
        · rw [if_neg hi, if_neg hi]; exact (if_neg hi).symm
      unfold evalOf Disc.residual2
      simp only [e]
    rw [hE]
    obtain ⟨o, ho, ho2, -⟩ := Disc.C43_second_order hok hadm hb h1 h2 h3 (fun i hi => hu i (hrows i hi)) (E := { E u with gg := fun i => if i < m.nelem then 0 else (E u).gg i })
      (fun k hk h4 h5 => absurd (hok.noInterface hn hk (by omega)) h5) (fun i hi => if_pos (hrows i hi)) 0
    exact ⟨o, ho, ho2⟩

theorem uniform_norm {u : ℕ → St} (hu : ∀ i, i < m.nelem → u i = O.gas.freestream O.aoa) : (solver (P.disc m s 0) (evalOf (P.disc m s 0) ord E)).norm u = some 0 := by
  obtain ⟨o, h1, h2⟩ := uniform_eval hfar hc hz ht hn hcov hg hM hP hord E hu
  have h0 : energy (P.disc m s 0) o.res = 0 := Finset.sum_eq_zero fun i hi => by
    rw [h2 i (Finset.mem_range.1 hi)]; simp
  simp only [solver, h1, Option.bind_some, h0, rootOf]
  rw [if_pos le_rfl, Real.sqrt_zero]

theorem uniform_upd {u : ℕ → St} (hu : ∀ i, i < m.nelem → u i = O.gas.freestream O.aoa) (cfl : ℝ) {i : ℕ} (hi : i < m.nelem) :
    (solver (P.disc m s 0) (evalOf (P.disc m s 0) ord E)).upd cfl u i = O.gas.freestream O.aoa := by
  obtain ⟨o, h1, h2⟩ := uniform_eval hfar hc hz ht hn hcov hg hM hP hord E hu
  simp only [solver, h1, euler]
  rw [if_pos (show i < (P.disc m s 0).G.m.nelem from hi), h2 i hi]
  funext v
  simp [hu i hi]

theorem uniform_ends {c : Conf} (ht0 : 0 ≤ c.tol) (ht1 : c.tol < 1) (hm : 1 < c.maxiter) {u : ℕ → St} (hu : ∀ i, i < m.nelem → u i = O.gas.freestream O.aoa) {n : ℕ} {o : Ode.Out}
    {v : Option (ℕ → St)} (h : Ends forwardEuler (solver (P.disc m s 0) (evalOf (P.disc m s 0) ord E)) c u n o v) :
    o = .ok ∧ ∃ x, v = some x ∧ ∀ i, i < m.nelem → x i = O.gas.freestream O.aoa := by
  have h0 := uniform_norm hfar hc hz ht hn hcov hg hM hP hord E hu
  have h2 := (C56_zero_residual_refuted ht0 ht1 hm h0).2.1
  obtain ⟨rfl, rfl⟩ := ((C56_terminates forwardEuler _ c u).2 1 _ h2).2 n o h.solve
  refine ⟨rfl, ?_⟩
  unfold Ends at h
  rw [if_neg (by omega)] at h
  obtain ⟨t, l1, rfl, l3⟩ := h
  cases t with
  | none => cases l3
  | some t =>
    refine ⟨_, rfl, fun i hi => ?_⟩
    have := (loop_inv (u := u) l1 0 rfl).2
    simp only [zero_add, traj, Option.bind_some, body, init, h0] at this
    obtain ⟨e, -⟩ := this
    rw [← Option.some.inj e]
    exact uniform_upd hfar hc hz ht hn hcov hg hM hP hord E hu _ hi

/-- C108: with far field all around, an explicit case returns normally and leaves the free stream in all cells. -/
theorem C108_uniform {use : Bool} {cs cm : Conf} (hs : use = true → 0 ≤ cs.tol ∧ cs.tol < 1 ∧ 1 < cs.maxiter) (ht0 : 0 ≤ cm.tol) (ht1 : cm.tol < 1) (hm : 1 < cm.maxiter) {seen : Seen}
    {v : Option (ℕ → St)} (h : CaseRun forwardEuler (single (P.disc m s 0)) (solver (P.disc m s 0) (evalOf (P.disc m s 0) ord E)) use cs cm (initVec O.gas O.aoa) seen v) :
    seen = .normal ∧ ∃ x, v = some x ∧ ∀ i, i < m.nelem → x i = O.gas.freestream O.aoa := by
  obtain ⟨e, v1, hst, hrest⟩ := h
  have h1 : starter use e = .normal ∧ ∃ x, v1 = some x ∧ ∀ i, i < m.nelem → x i = O.gas.freestream O.aoa := by
    unfold Starts at hst
    split_ifs at hst with hu
    · obtain ⟨n, o, he, rfl⟩ := hst
      obtain ⟨a, b, d⟩ := hs hu
      obtain ⟨rfl, hx⟩ := uniform_ends (ord := none) hfar hc hz ht hn hcov hg hM hP (fun _ _ e => by cases e) E a b d (fun i _ => rfl) he
      exact ⟨by rw [hu]; rfl, hx⟩
    · obtain ⟨rfl, rfl⟩ := hst
      exact ⟨by rw [Bool.not_eq_true] at hu; rw [hu]; rfl, _, rfl, fun i _ => rfl⟩
  obtain ⟨h2, x, rfl, hx⟩ := h1
  rw [if_pos h2] at hrest
  obtain ⟨w, n, o, hw, h4, h5⟩ := hrest
  cases hw
  obtain ⟨rfl, hy⟩ := uniform_ends hfar hc hz ht hn hcov hg hM hP hord E ht0 ht1 hm hx h4
  refine ⟨?_, hy⟩
  rw [h5, execute, h2]
  rfl

/-- C108 fails for implicit cases: with far field all around the initial vector is the exact solution, its residual is zero, and the case throws: `Tolerance_error` without a starting run, a
`Numerical_error` with one. -/
theorem C108_uniform_implicit_refuted {J : St → St → V2 → FJ} {relax : St → St → ℝ} {ksp : (ℕ × ℕ → Blk (Fin 4)) → (ℕ → St) → ℕ → St} {use : Bool} {cs cm : Conf}
    (hs : use = true → 0 ≤ cs.tol ∧ cs.tol < 1 ∧ 1 < cs.maxiter) (ht0 : 0 ≤ cm.tol) (ht1 : cm.tol < 1) (hm : 1 < cm.maxiter) {seen : Seen} {v : Option (ℕ → St)}
    (h : CaseRun backwardEuler (implicit (P.disc m s 0) J relax ksp) (solverI (P.disc m s 0) (evalOf (P.disc m s 0) ord E) J relax ksp) use cs cm (initVec O.gas O.aoa) seen v) :
    (solverI (P.disc m s 0) (evalOf (P.disc m s 0) ord E) J relax ksp).norm (initVec O.gas O.aoa) = some 0 ∧ seen = if use then .numErr else .tolErr := by
  obtain ⟨P0, e0, hgas, hbc⟩ := far_settings hfar
  rw [hP] at e0; cases e0
  have hbj : (P.disc m s 0).BcJOk := fun k hk => ⟨_, hbc _ (hcov k hk), rfl⟩
  have hnorm : ∀ {ord' : Option (GradScheme × ReconScheme)} (_ : ∀ gs R, ord' = some (gs, R) → Disc.GradOk (P.disc m s 0).G gs ∧ Disc.ReconOk R ∧
      ((R = .barthJespersen ∨ ∃ K, R = .venkatakrishnan K) → m.nbface = 0)), (solverI (P.disc m s 0) (evalOf (P.disc m s 0) ord' E) J relax ksp).norm (initVec O.gas O.aoa) = some 0 := by
    intro ord' ho
    simp only [solverI]
    rw [if_pos hbj]
    exact uniform_norm hfar hc hz ht hn hcov hg hM hP ho E fun i _ => rfl
  refine ⟨hnorm hord, ?_⟩
  have hend : ∀ {ord' : Option (GradScheme × ReconScheme)} (_ : ∀ gs R, ord' = some (gs, R) → Disc.GradOk (P.disc m s 0).G gs ∧ Disc.ReconOk R ∧
      ((R = .barthJespersen ∨ ∃ K, R = .venkatakrishnan K) → m.nbface = 0)) {c : Conf}, 0 ≤ c.tol → c.tol < 1 → 1 < c.maxiter → ∀ {n o v},
      Ends backwardEuler (solverI (P.disc m s 0) (evalOf (P.disc m s 0) ord' E) J relax ksp) c (initVec O.gas O.aoa) n o v → o = .numErr := by
    intro ord' ho c a b d n o v he
    exact (((C56_terminates backwardEuler _ c _).2 1 _ (C56_zero_residual_refuted a b d (hnorm ho)).1).2 n o he.solve).2
  obtain ⟨e, v1, hst, hrest⟩ := h
  unfold Starts at hst
  split_ifs at hst ⊢ with hu
  · obtain ⟨n, o, he, rfl⟩ := hst
    obtain ⟨a, b, d⟩ := hs hu
    obtain rfl := hend (ord' := none) (fun _ _ e => by cases e) a b d he
    subst hu
    exact hrest.2
  · obtain ⟨rfl, rfl⟩ := hst
    rw [Bool.not_eq_true] at hu
    subst hu
    obtain ⟨w, n, o, hw, h4, h5⟩ := hrest
    cases hw
    obtain rfl := hend hord ht0 ht1 hm h4
    exact h5

end uniform

end Par
end FVENS
