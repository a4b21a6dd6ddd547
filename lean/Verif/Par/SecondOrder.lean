import Verif.Par.ImplicitRun

/-!
# Second-order steady runs on several processes (C88, C96)

The steady solvers see the discretisation through one evaluation per iteration: residual and time steps (src/ode/aodesolver.cpp:179-189, 444-450). `solver`, `solvers`,
`solverI` and `solversI` are the solvers of `Par/Explicit.lean` and `Par/ImplicitRun.lean` with the evaluation left open; with the first-order evaluation they are those
solvers (`solver_first` and following). The second-order evaluation is `Disc.residual2` with data received from other ranks as in `Par/Distributed.lean`. The matrix of the implicit
solver is the first-order one in either case, computed from cell averages (src/spatial/aspatial.cpp:242-340).
-/

namespace FVENS
namespace Par

open Msh FV Flux Ode Lin
open Finset (range sum_eq_zero sum_congr)

/-! ### Model -/

/-- Explicit solver on one process with evaluation `ev`, src/ode/aodesolver.cpp:179-252. -/
noncomputable def solver (D : Disc) (ev : (ℕ → St) → Option Disc.Out) : Prob (ℕ → St) where
  norm := fun u => (ev u).bind fun o => rootOf (energy D o.res)
  nonneg := fun u r h => by
    obtain ⟨o, -, h⟩ := Option.bind_eq_some_iff.1 h
    exact rootOf_nonneg h
  upd := fun cfl u => match ev u with
    | some o => euler D cfl o o.res u
    | none => u

open Classical in
/-- Implicit solver on one process with evaluation `ev`, src/ode/aodesolver.cpp:420-530. -/
noncomputable def solverI (D : Disc) (ev : (ℕ → St) → Option Disc.Out) (J : St → St → V2 → FJ) (relax : St → St → ℝ)
    (ksp : (ℕ × ℕ → Blk (Fin 4)) → (ℕ → St) → ℕ → St) : Prob (ℕ → St) where
  norm := fun u => if D.BcJOk then (solver D ev).norm u else none
  nonneg := fun u r h => by
    split_ifs at h
    exact (solver D ev).nonneg u r h
  upd := fun cfl u => match ev u with
    | some o => relaxed D.G.m.nelem relax (ksp (sysOne D J u o cfl) o.res) u
    | none => u

section world
variable (P : Settings) (gm : Mesh) (s : FState) (dist : ℕ → ℕ) (n : ℕ) (ev : (ℕ → ℕ → St) → ℕ → Option (Disc × Disc.Out))

/-- Local residual array of rank `r`, src/ode/aodesolver.cpp:179-189, 444-450. -/
noncomputable def evRes (loc : ℕ → ℕ → St) (r : ℕ) : ℕ → St := match ev loc r with
  | some (_, o) => o.res
  | none => 0

open Classical in
/-- Explicit solver on `n` processes with evaluation `ev`, src/ode/aodesolver.cpp:179-252. -/
noncomputable def solvers : Prob (ℕ → ℕ → St) where
  norm := fun loc => if ∀ r, r < n → (ev loc r).isSome then
      rootOf (∑ r ∈ range n, match ev loc r with
        | some (D, _) => energy D (ghostAdd gm s dist n (evRes ev loc) r)
        | none => 0)
    else none
  nonneg := fun u r h => by
    split_ifs at h
    exact rootOf_nonneg h
  upd := fun cfl loc r => match ev loc r with
    | some (D, o) => euler D cfl o (ghostAdd gm s dist n (evRes ev loc) r) (loc r)
    | none => loc r

/-- Blocks that rank `r` adds to the system matrix, src/spatial/aspatial.cpp:242-340, src/ode/aodesolver.cpp:305-328: the Jacobian of cell averages, time steps from the
evaluation. -/
noncomputable def evSys (J : St → St → V2 → FJ) (loc : ℕ → ℕ → St) (cfl : ℝ) (r : ℕ) (x : ℕ × ℕ) : Blk (Fin 4) :=
  match restrict gm s dist r with
  | .ok S => match topological S.mesh with
    | .ok s' => match ev loc r with
      | some (_, o) => sysPart (P.rank gm s dist n r S s') J (rankCol S) (fun l => S.cells.getD l 0) (rankArray gm s dist n loc r S) o cfl x
      | none => 0
    | _ => 0
  | _ => 0

/-- System matrix after assembly, src/ode/aodesolver.cpp:471-472. -/
noncomputable def evSysAll (J : St → St → V2 → FJ) (loc : ℕ → ℕ → St) (cfl : ℝ) (x : ℕ × ℕ) : Blk (Fin 4) := ∑ r ∈ range n, evSys P gm s dist n ev J loc cfl r x

open Classical in
/-- Implicit solver on `n` processes with evaluation `ev`, src/ode/aodesolver.cpp:420-530. -/
noncomputable def solversI (J : St → St → V2 → FJ) (relax : St → St → ℝ) (ksp : (ℕ × ℕ → Blk (Fin 4)) → (ℕ → ℕ → St) → ℕ → ℕ → St) : Prob (ℕ → ℕ → St) where
  norm := fun loc => if ∀ r, r < n → rankJOk P gm s dist n r then (solvers gm s dist n ev).norm loc else none
  nonneg := fun u r h => by
    split_ifs at h
    exact (solvers gm s dist n ev).nonneg u r h
  upd := fun cfl loc r => match ev loc r with
    | some (D, _) => relaxed D.G.m.nelem relax (ksp (evSysAll P gm s dist n ev J loc cfl) (ghostAdd gm s dist n (evRes ev loc)) r) (loc r)
    | none => loc r

omit ev in
/-- Second-order evaluation of rank `r`; `E loc r` is what the rank has received from others when the ranks hold `loc`, and the previous contents of its arrays
(src/spatial/flow_spatial.cpp:636-816). -/
noncomputable def rankEval2 (gs : GradScheme) (R : ReconScheme) (E : (ℕ → ℕ → St) → ℕ → Disc.Env) (loc : ℕ → ℕ → St) (r : ℕ) : Option (Disc × Disc.Out) :=
  match restrict gm s dist r with
  | .ok S => match topological S.mesh with
    | .ok s' => ((P.rank gm s dist n r S s').residual2 gs R (E loc r) (rankArray gm s dist n loc r S) 0).map fun o => (P.rank gm s dist n r S s', o)
    | _ => none
  | _ => none

end world

/-- With the first-order evaluation, `solver` is the explicit solver of C88. -/
theorem solver_first (D : Disc) : solver D (fun u => D.residual1 u 0) = single D := rfl

theorem solverI_first (D : Disc) (J : St → St → V2 → FJ) (relax : St → St → ℝ) (ksp : (ℕ × ℕ → Blk (Fin 4)) → (ℕ → St) → ℕ → St) :
    solverI D (fun u => D.residual1 u 0) J relax ksp = implicit D J relax ksp := rfl

theorem solvers_first (P : Settings) (gm : Mesh) (s : FState) (dist : ℕ → ℕ) (n : ℕ) :
    solvers gm s dist n (rankEval P gm s dist n) = several P gm s dist n := rfl

theorem evSys_first (P : Settings) (gm : Mesh) (s : FState) (dist : ℕ → ℕ) (n : ℕ) (J : St → St → V2 → FJ) :
    evSys P gm s dist n (rankEval P gm s dist n) J = rankSys P gm s dist n J := by
  funext loc cfl r x
  unfold evSys rankSys
  cases hS : restrict gm s dist r with
  | ok S =>
    cases hs : topological S.mesh with
    | ok s' =>
      simp only [rankEval, hS, hs]
      cases (P.rank gm s dist n r S s').residual1 (rankArray gm s dist n loc r S) 0 <;> rfl
    | throws => simp [hs]
    | ub => simp [hs]
  | throws => rfl
  | ub => rfl

theorem solversI_first (P : Settings) (gm : Mesh) (s : FState) (dist : ℕ → ℕ) (n : ℕ) (J : St → St → V2 → FJ) (relax : St → St → ℝ)
    (ksp : (ℕ × ℕ → Blk (Fin 4)) → (ℕ → ℕ → St) → ℕ → ℕ → St) :
    solversI P gm s dist n (rankEval P gm s dist n) J relax ksp = implicits P gm s dist n J relax ksp := by
  have e : evSysAll P gm s dist n (rankEval P gm s dist n) J = sysAll P gm s dist n J := by
    funext loc cfl x
    unfold evSysAll sysAll
    rw [evSys_first]
  unfold solversI implicits
  rw [e]
  rfl

/-! ### Agreement of evaluations -/

section part
variable {gm : Mesh} {s : FState} {dist : ℕ → ℕ}

/-- The ranks below `n` hold `loc`, a single process holds `w`: residuals, areas and time steps of the ranks' cells are those of the single process, ghost rows are zero. -/
def Agree (D1 : Disc) (gm : Mesh) (s : FState) (dist : ℕ → ℕ) (n : ℕ) (ev1 : (ℕ → St) → Option Disc.Out) (ev : (ℕ → ℕ → St) → ℕ → Option (Disc × Disc.Out))
    (w : ℕ → St) (loc : ℕ → ℕ → St) : Prop :=
  ∃ o, ev1 w = some o ∧ ∀ r, r < n → ∃ S D o', restrict gm s dist r = .ok S ∧ ev loc r = some (D, o') ∧ D.G.m = S.mesh ∧
    (∀ l, l < S.mesh.nelem → o'.res l = o.res (S.cells.getD l 0) ∧ D.G.ar l = D1.G.ar (S.cells.getD l 0) ∧
      D.timestep o'.uL o'.uR l = D1.timestep o.uL o.uR (S.cells.getD l 0)) ∧ ∀ l, S.mesh.nelem ≤ l → o'.res l = 0

/-- Rows of connectivity ghosts receive nothing from the second-order residual either. -/
theorem residual2_ghost {D : Disc} (hok : D.G.Ok) {gs : GradScheme} {R : ReconScheme} {E : Disc.Env} {u : ℕ → St} {o : Disc.Out} (ho : D.residual2 gs R E u 0 = some o)
    {l : ℕ} (hl : D.G.m.nelem ≤ l) : o.res l = 0 := by
  unfold Disc.residual2 at ho
  split_ifs at ho
  obtain ⟨a, -, ho⟩ := Option.map_eq_some_iff.1 ho
  rw [← ho]
  simp only [Disc.fluxes]
  rw [assemble_eq, Pi.zero_apply, zero_add]
  refine Finset.sum_eq_zero fun k hk => ?_
  obtain ⟨k1, k2, -⟩ := hok.kind (k := k) (Finset.mem_range.1 hk)
  unfold contrib
  rw [if_neg (by rintro ⟨-, h5⟩; exact absurd h5 (not_lt.2 hl)), if_neg (by
    intro h5
    have k1 : (faceAt D.G.s.faces k).left < D.G.m.nelem := k1
    omega), sub_zero]

variable (hc : Conforming gm) (hn : gm.nconnface = 0) (ht : gm.nbtag ≤ 4) (h : topological gm = .ok s) {n : ℕ} (hd : ∀ g, g < gm.nelem → dist g < n)
include hc hn ht h hd

/-- One explicit iteration. -/
theorem agree_iteration {D1 : Disc} (hD1 : D1.G.m = gm) {ev1 : (ℕ → St) → Option Disc.Out} {ev : (ℕ → ℕ → St) → ℕ → Option (Disc × Disc.Out)}
    {w : ℕ → St} {loc : ℕ → ℕ → St} (ha : Agree D1 gm s dist n ev1 ev w loc) (hl : Represents gm s dist loc w) (cfl : ℝ) :
    (solvers gm s dist n ev).norm loc = (solver D1 ev1).norm w ∧ Represents gm s dist ((solvers gm s dist n ev).upd cfl loc) ((solver D1 ev1).upd cfl w) := by
  obtain ⟨o, ho, hr⟩ := ha
  have : Nonempty Msh.Sub := ⟨(restrict_spec hc hn ht h dist 0).choose⟩
  have : Nonempty Disc := ⟨D1⟩
  have : Nonempty Disc.Out := ⟨o⟩
  choose! S D o' hS hev hm hcell hghost using hr
  have hadd : ∀ r, r < n → ∀ l, ghostAdd gm s dist n (evRes ev loc) r l = (o' r).res l := fun r hr l => by
    unfold ghostAdd
    have e : ∀ q, q < n → evRes ev loc q = (o' q).res := fun q hq => by simp only [evRes, hev q hq]
    rw [e r hr, Finset.sum_eq_zero fun q hq => ?_, add_zero]
    have hq := Finset.mem_range.1 hq
    simp only [hS q hq]
    refine Finset.sum_eq_zero fun ic _ => ?_
    rw [e q hq, hghost q hq _ (by omega)]
    simp
  choose S2 hS2 hspec _ using fun r => restrict_spec hc hn ht h dist r
  have hSS : ∀ r, r < n → S r = S2 r := fun r hr => by
    have := hS r hr
    rw [hS2 r] at this
    exact (BC.Res.ok.inj this).symm
  constructor
  · simp only [solvers, solver, ho, Option.bind_some]
    rw [if_pos fun r hr => by rw [hev r hr]; rfl]
    congr 1
    unfold energy
    rw [hD1, ← sum_ranks hc hn ht h hd hS2 fun i => o.res i 3 * o.res i 3 * D1.G.ar i]
    refine Finset.sum_congr rfl fun r hr => ?_
    have hr := Finset.mem_range.1 hr
    simp only [hev r hr]
    rw [hm r hr, ← hSS r hr]
    refine Finset.sum_congr rfl fun l hl => ?_
    obtain ⟨c1, c2, -⟩ := hcell r hr l (Finset.mem_range.1 hl)
    rw [hadd r hr, c1, c2]
  · intro r S' hS' l g hlg
    rw [hS2 r] at hS'; cases hS'
    have hgn := ((hspec r).cells g).1 (List.mem_of_getElem? hlg)
    have hr : r < n := hgn.2 ▸ hd g hgn.1
    have hll : l < (S2 r).mesh.nelem := by rw [(hspec r).nelem]; exact (List.getElem?_eq_some_iff.1 hlg).1
    have hgg : (S2 r).cells.getD l 0 = g := by rw [List.getD_eq_getElem?_getD, hlg, Option.getD_some]
    obtain ⟨c1, c2, c3⟩ := hcell r hr l (by rw [hSS r hr]; exact hll)
    rw [hSS r hr, hgg] at c1 c2 c3
    simp only [solvers, solver, ho, hev r hr, euler]
    rw [hm r hr, hSS r hr, if_pos hll, hD1, if_pos hgn.1, hadd r hr, c1, c2, c3, hl r (S2 r) (hS2 r) l g hlg]

/-- Whole explicit runs. -/
theorem agree_run {D1 : Disc} (hD1 : D1.G.m = gm) {ev1 : (ℕ → St) → Option Disc.Out} {ev : (ℕ → ℕ → St) → ℕ → Option (Disc × Disc.Out)}
    {w : ℕ → St} {loc : ℕ → ℕ → St} (hl : Represents gm s dist loc w) {c : Conf} {k : ℕ} {out : Ode.Out}
    (hrun : Solve forwardEuler (solver D1 ev1) c w k out)
    (hag : ∀ j, j < k → ∀ m, traj forwardEuler (solver D1 ev1) c w j = some m → ∀ loc', Represents gm s dist loc' m.u → Agree D1 gm s dist n ev1 ev m.u loc') :
    Solve forwardEuler (solvers gm s dist n ev) c loc k out ∧
    (∀ k' out', Solve forwardEuler (solvers gm s dist n ev) c loc k' out' → k' = k ∧ out' = out) ∧
    ∀ m, Loop (Ode.cond c) (body forwardEuler (solver D1 ev1) c) (init forwardEuler c w) k (some m) →
      ∃ m', Loop (Ode.cond c) (body forwardEuler (solvers gm s dist n ev) c) (init forwardEuler c loc) k (some m') ∧
        Represents gm s dist m'.u m.u ∧ m'.resi = m.resi ∧ m'.initres = m.initres ∧ m'.log = m.log := by
  have hsim : ∀ {o}, Loop (Ode.cond c) (body forwardEuler (solver D1 ev1) c) (init forwardEuler c w) k o →
      ∃ o', Loop (Ode.cond c) (body forwardEuler (solvers gm s dist n ev) c) (init forwardEuler c loc) k o' ∧ (o = none → o' = none) ∧
        ∀ t, o = some t → ∃ t', o' = some t' ∧ Same (fun (u : ℕ → St) (u' : ℕ → ℕ → St) => Represents gm s dist u' u) t t' := fun hloop =>
    loop_sim (R := fun (u : ℕ → St) (u' : ℕ → ℕ → St) => Represents gm s dist u' u)
      (good := fun u => ∀ loc', Represents gm s dist loc' u → Agree D1 gm s dist n ev1 ev u loc')
      (fun u u' hgd hR => (agree_iteration hc hn ht h hd hD1 (hgd u' hR) hR 0).1)
      (fun a u u' hgd hR => (agree_iteration hc hn ht h hd hD1 (hgd u' hR) hR a).2) hloop
      ⟨hl, rfl, rfl, rfl, rfl, rfl, rfl⟩ (fun j hj t ht => hag j hj t (by rw [traj_iterate]; exact ht))
  have hsol : Solve forwardEuler (solvers gm s dist n ev) c loc k out := by
    unfold Solve at hrun ⊢
    split_ifs at hrun ⊢ with hmx
    · exact hrun
    · obtain ⟨o, l1, l2⟩ := hrun
      obtain ⟨o', s1, s2, s3⟩ := hsim l1
      refine ⟨o', s1, ?_⟩
      cases o with
      | none => rw [s2 rfl]; exact l2
      | some t =>
        obtain ⟨t', rfl, hs⟩ := s3 t rfl
        rw [l2]
        simp only [forwardEuler, hs.step]
  refine ⟨hsol, fun k' out' h' => ((C56_terminates forwardEuler _ c loc).2 k out hsol).2 k' out' h', fun m hm => ?_⟩
  obtain ⟨o', s1, -, s3⟩ := hsim hm
  obtain ⟨t', rfl, hs⟩ := s3 m rfl
  exact ⟨t', s1, hs.u, hs.resi, hs.initres, hs.log⟩

section second
variable (hz : NoZeroFace gm) (hall : AllRegistered gm s dist) (hmono : ∀ i j, i < j → j < gm.nelem → dist i ≤ dist j) (P : Settings)
include hz hall hmono

/-- Second-order evaluations agree. -/
theorem agree_second {gs : GradScheme} {R : ReconScheme} {E0 : (ℕ → St) → Disc.Env} {E : (ℕ → ℕ → St) → ℕ → Disc.Env} {w : ℕ → St} {loc : ℕ → ℕ → St}
    (hl : Represents gm s dist loc w) {S : ℕ → Sub} {s' : ℕ → FState} (hS : ∀ r, restrict gm s dist r = .ok (S r)) (hs' : ∀ r, topological (S r).mesh = .ok (s' r))
    (hE : Received gm s dist n gs R S (fun r => P.rank gm s dist n r (S r) (s' r)) (fun r => rankArray gm s dist n loc r (S r)) (E loc))
    (hsw : ∃ o, (P.disc gm s 0).residual2 gs R (E0 w) w 0 = some o ∧
      ∀ k, k < (P.disc gm s 0).G.nface → (P.disc gm s 0).G.inner k → (P.disc gm s 0).SwapOk (o.uR k) (o.uL k)) :
    Agree (P.disc gm s 0) gm s dist n (fun u => (P.disc gm s 0).residual2 gs R (E0 u) u 0) (rankEval2 P gm s dist n gs R E) w loc := by
  obtain ⟨o, ho, hsw⟩ := hsw
  refine ⟨o, ho, fun r hr => ?_⟩
  obtain ⟨o', h1, h2⟩ := C76_second_order_partial hc hn ht h hz hall hd hmono P hl ho hsw hS hs' hE hr 0
  obtain ⟨S', hS', hsub, hcon, -⟩ := restrict_spec hc hn ht h dist r
  rw [hS r] at hS'; cases hS'
  have hpos : ∀ ic, ic < (S r).mesh.nconnface → position gm.nelem dist ((S r).mesh.connface ic 3) = (S r).mesh.connface ic 3 := fun ic hic => by
    obtain ⟨g, j, k, r1, r2, -, -, r5, -⟩ := hcon.row ic hic
    rw [r5]; exact position_id_iff.2 hmono j r2.2.1.1
  obtain ⟨hok, τ, hcp⟩ := rank_copy hc hn ht h hz hall hd P (hS r) hpos (hs' r)
  refine ⟨S r, P.rank gm s dist n r (S r) (s' r), o', hS r, ?_, rfl, fun l hll => ?_, fun l hll => residual2_ghost hok h1 hll⟩
  · simp only [rankEval2, hS r, hs' r, h1, Option.map_some]
  · have hlc : l < (S r).cells.length := by rw [← hsub.nelem]; exact hll
    have hlg : (S r).cells[l]? = some ((S r).cells.getD l 0) := by
      rw [List.getD_eq_getElem?_getD, List.getElem?_eq_getElem hlc, Option.getD_some]
    obtain ⟨a, b⟩ := h2 l _ hlg
    refine ⟨by simpa using a, ?_, b⟩
    have := hcp.geo.ar l hll
    rw [rowCell, if_pos hll] at this
    exact this

/-- C88, whole runs of the second-order discretisation with any gradient and reconstruction scheme, inviscid or viscous: for every number of processes, every assignment of cells
that is non-decreasing along the cell numbering and registers all interface faces, every configuration and initial state: if the single process ends with `out` after `k`
iterations and, at the states visited, its residual is defined and its flux treats the reconstructed states of the two sides of inner faces alike (true of admissible states
and `4 ≤ 3 γ`, `swapOk_of_adm`), the processes together end with `out` after `k` iterations and cannot end otherwise; at a normal end their states are those of the single process,
and so are the norms and CFL numbers reported. Missing for the full claim: other assignments, for which it fails (`C88_refuted`). -/
theorem C88_second_order_run_partial {gs : GradScheme} {R : ReconScheme} (E0 : (ℕ → St) → Disc.Env) {E : (ℕ → ℕ → St) → ℕ → Disc.Env}
    {S : ℕ → Sub} {s' : ℕ → FState} (hS : ∀ r, restrict gm s dist r = .ok (S r)) (hs' : ∀ r, topological (S r).mesh = .ok (s' r))
    (hE : ∀ loc, Received gm s dist n gs R S (fun r => P.rank gm s dist n r (S r) (s' r)) (fun r => rankArray gm s dist n loc r (S r)) (E loc))
    {w : ℕ → St} {loc : ℕ → ℕ → St} (hl : Represents gm s dist loc w) {c : Conf} {k : ℕ} {out : Ode.Out}
    (hrun : Solve forwardEuler (solver (P.disc gm s 0) fun u => (P.disc gm s 0).residual2 gs R (E0 u) u 0) c w k out)
    (hgood : ∀ j, j < k → ∀ m, traj forwardEuler (solver (P.disc gm s 0) fun u => (P.disc gm s 0).residual2 gs R (E0 u) u 0) c w j = some m →
      ∃ o, (P.disc gm s 0).residual2 gs R (E0 m.u) m.u 0 = some o ∧
        ∀ k, k < (P.disc gm s 0).G.nface → (P.disc gm s 0).G.inner k → (P.disc gm s 0).SwapOk (o.uR k) (o.uL k)) :
    Solve forwardEuler (solvers gm s dist n (rankEval2 P gm s dist n gs R E)) c loc k out ∧
    (∀ k' out', Solve forwardEuler (solvers gm s dist n (rankEval2 P gm s dist n gs R E)) c loc k' out' → k' = k ∧ out' = out) ∧
    ∀ m, Loop (Ode.cond c) (body forwardEuler (solver (P.disc gm s 0) fun u => (P.disc gm s 0).residual2 gs R (E0 u) u 0) c) (init forwardEuler c w) k (some m) →
      ∃ m', Loop (Ode.cond c) (body forwardEuler (solvers gm s dist n (rankEval2 P gm s dist n gs R E)) c) (init forwardEuler c loc) k (some m') ∧
        Represents gm s dist m'.u m.u ∧ m'.resi = m.resi ∧ m'.initres = m.initres ∧ m'.log = m.log :=
  agree_run hc hn ht h hd rfl hl hrun fun j hj m hm loc' hl' =>
    agree_second hc hn ht h hd hz hall hmono P (E0 := E0) hl' hS hs' (hE loc') (hgood j hj m hm)

omit hz in
/-- Data received exists at every state of the ranks. -/
theorem receivedAll_exists (gs : GradScheme) (R : ReconScheme) {S : ℕ → Sub} {s' : ℕ → FState} (hS : ∀ r, restrict gm s dist r = .ok (S r)) (E1 : ℕ → Disc.Env) :
    ∃ E : (ℕ → ℕ → St) → ℕ → Disc.Env, ∀ loc,
      Received gm s dist n gs R S (fun r => P.rank gm s dist n r (S r) (s' r)) (fun r => rankArray gm s dist n loc r (S r)) (E loc) := by
  choose E hE _ using fun loc : ℕ → ℕ → St => received_exists hc hn ht h hall hd hmono gs R S hS (fun r => P.rank gm s dist n r (S r) (s' r)) (fun _ => rfl)
    (fun r => rankArray gm s dist n loc r (S r)) E1
  exact ⟨E, hE⟩

/-! ### Implicit solver -/

/-- The distributed system matrix is that of the single process. -/
theorem agree_sysAll {J : St → St → V2 → FJ} {ev1 : (ℕ → St) → Option Disc.Out} {ev : (ℕ → ℕ → St) → ℕ → Option (Disc × Disc.Out)} {w : ℕ → St} {loc : ℕ → ℕ → St}
    (ha : Agree (P.disc gm s 0) gm s dist n ev1 ev w loc) (hDr : ∀ r S s', restrict gm s dist r = .ok S → topological S.mesh = .ok s' → ∀ D o, ev loc r = some (D, o) → D = P.rank gm s dist n r S s')
    (hJ : ∀ i j f, i < gm.nelem → j < gm.nelem → f < gm.nnode i → Across gm (i, f) (.cell j) →
      Mirror J (w i) (w j) (fNrm (nodeA gm i f) (nodeB gm i f)))
    (hl : Represents gm s dist loc w) (cfl : ℝ) {o : Disc.Out} (ho : ev1 w = some o) {gi : ℕ} (hgi : gi < gm.nelem) (gc : ℕ) :
    evSysAll P gm s dist n ev J loc cfl (gi, gc) = sysOne (P.disc gm s 0) J w o cfl (gi, gc) := by
  obtain ⟨o2, ho2, hr⟩ := ha
  rw [ho] at ho2; cases ho2
  have : Nonempty Msh.Sub := ⟨(restrict_spec hc hn ht h dist 0).choose⟩
  have : Nonempty Disc := ⟨P.disc gm s 0⟩
  have : Nonempty Disc.Out := ⟨o⟩
  choose! T D o' hT hev hm hcell hghost using hr
  choose S hS _ _ using fun r => restrict_spec hc hn ht h dist r
  have hTS : ∀ r, r < n → T r = S r := fun r hr => by
    have := hT r hr
    rw [hS r] at this
    exact (BC.Res.ok.inj this).symm
  choose s' hs' using fun r => sub_topological hc hn ht h (hS r)
  have hDo : ∀ r, r < n → D r = P.rank gm s dist n r (S r) (s' r) := fun r hr => hDr r _ _ (hS r) (hs' r) _ _ (hev r hr)
  obtain ⟨Ar, A, hA⟩ := assembledOn_exists P gm s dist n J loc (nt := fun _ => 1) (fun _ => one_pos) S s'
  obtain ⟨A1, hA1⟩ := assembleJac_exists (G := (P.disc gm s 0).G) (gcol := oneCol gm)
    (Lb := fun k => (P.disc gm s 0).blkBoundary J ((P.disc gm s 0).bjac k) k (w ((P.disc gm s 0).G.face k).left))
    (L := fun k => ((P.disc gm s 0).blkInterior J k (w ((P.disc gm s 0).G.face k).left) (w ((P.disc gm s 0).G.face k).right)).dfdl)
    (U := fun k => ((P.disc gm s 0).blkInterior J k (w ((P.disc gm s 0).G.face k).left) (w ((P.disc gm s 0).G.face k).right)).dfdr) one_pos (fun _ => 0)
  have hblk := C82_blocks_partial hc hn ht h hz hall hd hmono P hJ hl hS hs' hA (nt1 := 1) hA1 hgi gc
  have hD1 : (P.disc gm s 0).G.Ok := ⟨hc, hz, h⟩
  have e1 : A1 (gi, gc) = (P.disc gm s 0).jacSum J (oneCol gm) w (gi, gc) := by rw [Disc.assembleFlow_eq hD1 hA1, zero_add]
  have e2 : ∀ r, r < n → Ar r (gi, gc) = (P.rank gm s dist n r (S r) (s' r)).jacSum J (rankCol (S r)) (rankArray gm s dist n loc r (S r)) (gi, gc) := fun r hr => by
    rw [Disc.assembleFlow_eq (rank_ok hc hn ht h hz hall P (hS r) (hs' r)) (hA.1 r hr), zero_add]
    rfl
  rw [e1, hA.2, sum_congr rfl fun r hr => e2 r (Finset.mem_range.1 hr)] at hblk
  have e3 : ∀ r, r < n → evSys P gm s dist n ev J loc cfl r (gi, gc) =
      (P.rank gm s dist n r (S r) (s' r)).jacSum J (rankCol (S r)) (rankArray gm s dist n loc r (S r)) (gi, gc) +
        ∑ l ∈ range (S r).mesh.nelem, (fun g => amtAt (gi, gc) (pseudoUpds (nv := 4) id
          (pseudoDt (P.disc gm s 0).G.ar ((P.disc gm s 0).timestep o.uL o.uR) cfl) g)) ((S r).cells.getD l 0) := fun r hr => by
    simp only [evSys, hS r, hs' r, hev r hr, sysPart]
    congr 1
    refine sum_congr rfl fun l hl => ?_
    obtain ⟨-, c2, c3⟩ := hcell r hr l (by rw [hTS r hr]; exact Finset.mem_range.1 hl)
    rw [hDo r hr, hTS r hr] at c2 c3
    rw [amtAt_pseudo, amtAt_pseudo]
    simp only [pseudoDt, id, c2, c3]
  rw [evSysAll, sum_congr rfl fun r hr => e3 r (Finset.mem_range.1 hr), Finset.sum_add_distrib, hblk,
    sum_ranks hc hn ht h hd hS fun g => amtAt (gi, gc) (pseudoUpds (nv := 4) id (pseudoDt (P.disc gm s 0).G.ar ((P.disc gm s 0).timestep o.uL o.uR) cfl) g)]
  rfl

/-- One implicit iteration. -/
theorem agree_implicit {J : St → St → V2 → FJ} {ev1 : (ℕ → St) → Option Disc.Out} {ev : (ℕ → ℕ → St) → ℕ → Option (Disc × Disc.Out)} {w : ℕ → St} {loc : ℕ → ℕ → St}
    (ha : Agree (P.disc gm s 0) gm s dist n ev1 ev w loc) (hDr : ∀ r S s', restrict gm s dist r = .ok S → topological S.mesh = .ok s' → ∀ D o, ev loc r = some (D, o) → D = P.rank gm s dist n r S s')
    (hbj : (P.disc gm s 0).BcJOk)
    (hJ : ∀ i j f, i < gm.nelem → j < gm.nelem → f < gm.nnode i → Across gm (i, f) (.cell j) →
      Mirror J (w i) (w j) (fNrm (nodeA gm i f) (nodeB gm i f)))
    (hl : Represents gm s dist loc w) (relax : St → St → ℝ)
    {ksp : (ℕ × ℕ → Blk (Fin 4)) → (ℕ → St) → ℕ → St} (hk : Exact gm.nelem ksp)
    {ksp' : (ℕ × ℕ → Blk (Fin 4)) → (ℕ → ℕ → St) → ℕ → ℕ → St} (hk' : ExactOn gm s dist n ksp') :
    (solversI P gm s dist n ev J relax ksp').norm loc = (solverI (P.disc gm s 0) ev1 J relax ksp).norm w ∧
      ∀ cfl, (∀ o, ev1 w = some o → Regular gm.nelem (sysOne (P.disc gm s 0) J w o cfl)) →
        Represents gm s dist ((solversI P gm s dist n ev J relax ksp').upd cfl loc) ((solverI (P.disc gm s 0) ev1 J relax ksp).upd cfl w) := by
  obtain ⟨o, ho, hr⟩ := id ha
  have : Nonempty Msh.Sub := ⟨(restrict_spec hc hn ht h dist 0).choose⟩
  have : Nonempty Disc := ⟨P.disc gm s 0⟩
  have : Nonempty Disc.Out := ⟨o⟩
  choose! T D o' hT hev hm hcell hghost using hr
  choose S hS hspec hcon _ using fun r => restrict_spec hc hn ht h dist r
  have hTS : ∀ r, r < n → T r = S r := fun r hr => by
    have := hT r hr
    rw [hS r] at this
    exact (BC.Res.ok.inj this).symm
  choose s' hs' using fun r => sub_topological hc hn ht h (hS r)
  have hadd : ∀ r, r < n → ∀ l, ghostAdd gm s dist n (evRes ev loc) r l = (o' r).res l := fun r hr l => by
    unfold ghostAdd
    have e : ∀ q, q < n → evRes ev loc q = (o' q).res := fun q hq => by simp only [evRes, hev q hq]
    rw [e r hr, Finset.sum_eq_zero fun q hq => ?_, add_zero]
    have hq := Finset.mem_range.1 hq
    simp only [hT q hq]
    refine Finset.sum_eq_zero fun ic _ => ?_
    rw [e q hq, hghost q hq _ (by omega)]
    simp
  constructor
  · have hrk : ∀ r, r < n → rankJOk P gm s dist n r := fun r _ => by
      have hpos : ∀ ic, ic < (S r).mesh.nconnface → position gm.nelem dist ((S r).mesh.connface ic 3) = (S r).mesh.connface ic 3 := fun ic hic => by
        obtain ⟨g, j, k, r1, r2, -, -, r5, -⟩ := (hcon r).row ic hic
        rw [r5]; exact position_id_iff.2 hmono j r2.2.1.1
      obtain ⟨hok, τ, hcp⟩ := rank_copy hc hn ht h hz hall hd P (hS r) hpos (hs' r)
      simp only [rankJOk, hS r, hs' r]
      exact bcJOk_copy hok hcp hbj
    simp only [solversI, solverI]
    rw [if_pos hrk, if_pos hbj]
    exact (agree_iteration hc hn ht h hd (D1 := P.disc gm s 0) rfl ha hl 0).1
  · intro cfl hreg
    have hR := hreg o ho
    have hAeq : ∀ gi gc, gi < gm.nelem → evSysAll P gm s dist n ev J loc cfl (gi, gc) = sysOne (P.disc gm s 0) J w o cfl (gi, gc) := fun gi gc hgi =>
      agree_sysAll hc hn ht h hd hz hall hmono P ha hDr hJ hl cfl ho hgi gc
    have hR' : Regular gm.nelem (evSysAll P gm s dist n ev J loc cfl) := hR.congr fun i q hi _ => (hAeq i q hi).symm
    set dl := ksp' (evSysAll P gm s dist n ev J loc cfl) (ghostAdd gm s dist n (evRes ev loc)) with hdl
    obtain ⟨x, hx⟩ := represents_some hc hn ht h (dist := dist) dl
    have hbrep : Represents gm s dist (ghostAdd gm s dist n (evRes ev loc)) o.res := by
      intro r S' hS' l g hlg
      rw [hS r] at hS'; cases hS'
      have hgn := ((hspec r).cells g).1 (List.mem_of_getElem? hlg)
      have hr : r < n := hgn.2 ▸ hd g hgn.1
      have hll : l < (T r).mesh.nelem := by rw [hTS r hr, (hspec r).nelem]; exact (List.getElem?_eq_some_iff.1 hlg).1
      rw [hadd r hr, (hcell r hr l hll).1, hTS r hr, List.getD_eq_getElem?_getD, hlg, Option.getD_some]
    have hpos : ∀ p, p < gm.nelem → position gm.nelem dist p = p := position_id_iff.2 hmono
    have hsolve : ∀ p, p < gm.nelem → mulRow gm.nelem (sysOne (P.disc gm s 0) J w o cfl) x p = o.res p := fun p hp => by
      have e := hk' (evSysAll P gm s dist n ev J loc cfl) (ghostAdd gm s dist n (evRes ev loc)) hR' p hp
      have e1 := blockAt_position hc hn ht h hd hbrep hp
      rw [hpos p hp] at e1
      rw [e1, Option.getD_some, ← hdl] at e
      rw [← e]
      refine mulRow_congr (x := x) (y := fun q => (blockAt gm s dist n dl q).getD 0) (fun q _ => (hAeq p q hp).symm) fun q hq => ?_
      have e2 := blockAt_position hc hn ht h hd hx hq
      rw [hpos q hq] at e2
      rw [e2, Option.getD_some]
    have hxe : ∀ g, g < gm.nelem → x g = ksp (sysOne (P.disc gm s 0) J w o cfl) o.res g := fun g hg' =>
      hR.unique (fun i hi => (hsolve i hi).trans (hk _ o.res hR i hi).symm) hg'
    intro r S' hS' l g hlg
    rw [hS r] at hS'; cases hS'
    have hgn := ((hspec r).cells g).1 (List.mem_of_getElem? hlg)
    have hr : r < n := hgn.2 ▸ hd g hgn.1
    have hll : l < (T r).mesh.nelem := by rw [hTS r hr, (hspec r).nelem]; exact (List.getElem?_eq_some_iff.1 hlg).1
    have e1 : (solversI P gm s dist n ev J relax ksp').upd cfl loc r = relaxed (T r).mesh.nelem relax (dl r) (loc r) := by
      simp only [solversI, hev r hr, ← hm r hr, ← hdl]
    have e2 : (solverI (P.disc gm s 0) ev1 J relax ksp).upd cfl w = relaxed gm.nelem relax (ksp (sysOne (P.disc gm s 0) J w o cfl) o.res) w := by
      simp only [solverI, ho]; rfl
    rw [e1, e2]
    simp only [relaxed, if_pos hll, if_pos hgn.1, hx r (S r) (hS r) l g hlg, hxe g hgn.1, hl r (S r) (hS r) l g hlg]

/-- C96, whole runs with the second-order discretisation (any gradient and reconstruction scheme, inviscid or viscous): for every number of processes, every assignment of
cells that is non-decreasing along the cell numbering and registers all interface faces, every configuration, relaxation and pair of exact linear solvers: if the single process
ends with `out` after `k` iterations and, at the states visited, its residual is defined, its flux treats the reconstructed states of the sides of inner faces alike, its
flux Jacobian the cell averages, and its system matrices are regular, then the processes together end with `out` after `k` iterations and cannot end otherwise; at a normal end
their states, norms and CFL numbers are those of the single process. Missing for the full claim: other assignments (C82_refuted, C88_refuted), inexact linear solvers. -/
theorem C96_second_order_run_partial (hbj : (P.disc gm s 0).BcJOk) {gs : GradScheme} {R : ReconScheme} (E0 : (ℕ → St) → Disc.Env) {E : (ℕ → ℕ → St) → ℕ → Disc.Env}
    {S : ℕ → Sub} {s' : ℕ → FState} (hS : ∀ r, restrict gm s dist r = .ok (S r)) (hs' : ∀ r, topological (S r).mesh = .ok (s' r))
    (hE : ∀ loc, Received gm s dist n gs R S (fun r => P.rank gm s dist n r (S r) (s' r)) (fun r => rankArray gm s dist n loc r (S r)) (E loc))
    {J : St → St → V2 → FJ} {w : ℕ → St} {loc : ℕ → ℕ → St} (hl : Represents gm s dist loc w) (relax : St → St → ℝ)
    {ksp : (ℕ × ℕ → Blk (Fin 4)) → (ℕ → St) → ℕ → St} (hk : Exact gm.nelem ksp)
    {ksp' : (ℕ × ℕ → Blk (Fin 4)) → (ℕ → ℕ → St) → ℕ → ℕ → St} (hk' : ExactOn gm s dist n ksp') {c : Conf} {k : ℕ} {out : Ode.Out}
    (hrun : Solve backwardEuler (solverI (P.disc gm s 0) (fun u => (P.disc gm s 0).residual2 gs R (E0 u) u 0) J relax ksp) c w k out)
    (hgood : ∀ j, j < k → ∀ m, traj backwardEuler (solverI (P.disc gm s 0) (fun u => (P.disc gm s 0).residual2 gs R (E0 u) u 0) J relax ksp) c w j = some m →
      (∀ i j f, i < gm.nelem → j < gm.nelem → f < gm.nnode i → Across gm (i, f) (.cell j) → Mirror J (m.u i) (m.u j) (fNrm (nodeA gm i f) (nodeB gm i f))) ∧
      ∃ o, (P.disc gm s 0).residual2 gs R (E0 m.u) m.u 0 = some o ∧
        (∀ k, k < (P.disc gm s 0).G.nface → (P.disc gm s 0).G.inner k → (P.disc gm s 0).SwapOk (o.uR k) (o.uL k)) ∧
        Regular gm.nelem (sysOne (P.disc gm s 0) J m.u o (nextCfl backwardEuler c m))) :
    Solve backwardEuler (solversI P gm s dist n (rankEval2 P gm s dist n gs R E) J relax ksp') c loc k out ∧
    (∀ k' out', Solve backwardEuler (solversI P gm s dist n (rankEval2 P gm s dist n gs R E) J relax ksp') c loc k' out' → k' = k ∧ out' = out) ∧
    ∀ m, Loop (Ode.cond c) (body backwardEuler (solverI (P.disc gm s 0) (fun u => (P.disc gm s 0).residual2 gs R (E0 u) u 0) J relax ksp) c) (init backwardEuler c w) k (some m) →
      ∃ m', Loop (Ode.cond c) (body backwardEuler (solversI P gm s dist n (rankEval2 P gm s dist n gs R E) J relax ksp') c) (init backwardEuler c loc) k (some m') ∧
        Represents gm s dist m'.u m.u ∧ m'.resi = m.resi ∧ m'.initres = m.initres ∧ m'.log = m.log := by
  have hDr : ∀ loc r T t, restrict gm s dist r = .ok T → topological T.mesh = .ok t → ∀ D o, rankEval2 P gm s dist n gs R E loc r = some (D, o) → D = P.rank gm s dist n r T t := by
    intro loc r T t h1 h2 D o h3
    simp only [rankEval2, h1, h2, Option.map_eq_some_iff] at h3
    obtain ⟨a, -, h4⟩ := h3
    exact (Prod.mk.inj h4).1.symm
  have hsim : ∀ {o}, Loop (Ode.cond c) (body backwardEuler (solverI (P.disc gm s 0) (fun u => (P.disc gm s 0).residual2 gs R (E0 u) u 0) J relax ksp) c) (init backwardEuler c w) k o →
      ∃ o', Loop (Ode.cond c) (body backwardEuler (solversI P gm s dist n (rankEval2 P gm s dist n gs R E) J relax ksp') c) (init backwardEuler c loc) k o' ∧ (o = none → o' = none) ∧
        ∀ t, o = some t → ∃ t', o' = some t' ∧ Same (fun (u : ℕ → St) (u' : ℕ → ℕ → St) => Represents gm s dist u' u) t t' := fun hloop =>
    loop_sim_cfl (R := fun (u : ℕ → St) (u' : ℕ → ℕ → St) => Represents gm s dist u' u)
      (good := fun m =>
        (∀ i j f, i < gm.nelem → j < gm.nelem → f < gm.nnode i → Across gm (i, f) (.cell j) → Mirror J (m.u i) (m.u j) (fNrm (nodeA gm i f) (nodeB gm i f))) ∧
        ∃ o, (P.disc gm s 0).residual2 gs R (E0 m.u) m.u 0 = some o ∧
          (∀ k, k < (P.disc gm s 0).G.nface → (P.disc gm s 0).G.inner k → (P.disc gm s 0).SwapOk (o.uR k) (o.uL k)) ∧
          Regular gm.nelem (sysOne (P.disc gm s 0) J m.u o (nextCfl backwardEuler c m)))
      (fun m u' hgd hR => by
        obtain ⟨g1, o, g2, g3, g4⟩ := hgd
        exact (agree_implicit hc hn ht h hd hz hall hmono P (agree_second hc hn ht h hd hz hall hmono P (E0 := E0) hR hS hs' (hE u') ⟨o, g2, g3⟩) (hDr u')
          hbj g1 hR relax hk hk').1)
      (fun m u' hgd hR => by
        obtain ⟨g1, o, g2, g3, g4⟩ := hgd
        refine (agree_implicit hc hn ht h hd hz hall hmono P (agree_second hc hn ht h hd hz hall hmono P (E0 := E0) hR hS hs' (hE u') ⟨o, g2, g3⟩) (hDr u')
          hbj g1 hR relax hk hk').2 _ fun o' ho' => ?_
        rw [g2] at ho'; cases ho'
        exact g4) hloop
      ⟨hl, rfl, rfl, rfl, rfl, rfl, rfl⟩ (fun j hj t ht => hgood j hj t (by rw [traj_iterate]; exact ht))
  have hsol : Solve backwardEuler (solversI P gm s dist n (rankEval2 P gm s dist n gs R E) J relax ksp') c loc k out := by
    unfold Solve at hrun ⊢
    split_ifs at hrun ⊢ with hmx
    · exact hrun
    · obtain ⟨o, l1, l2⟩ := hrun
      obtain ⟨o', s1, s2, s3⟩ := hsim l1
      refine ⟨o', s1, ?_⟩
      cases o with
      | none => rw [s2 rfl]; exact l2
      | some t =>
        obtain ⟨t', rfl, hs⟩ := s3 t rfl
        rw [l2]
        simp only [backwardEuler]
        rw [hs.step, hs.resi, hs.initres]
  refine ⟨hsol, fun k' out' h' => ((C56_terminates backwardEuler _ c loc).2 k out hsol).2 k' out' h', fun m hm => ?_⟩
  obtain ⟨o', s1, -, s3⟩ := hsim hm
  obtain ⟨t', rfl, hs⟩ := s3 m rfl
  exact ⟨t', s1, hs.u, hs.resi, hs.initres, hs.log⟩

end second
end part

/-! ### The square cut by its diagonals, on two ranks -/

/-- Without gradients, linear reconstruction returns the cell averages. -/
theorem zero_linear_states {D : Disc} (hok : D.G.Ok) (hg : D.gas.g ≠ 1) {E : Disc.Env} {u : ℕ → St} (hu : ∀ i, i < D.G.m.nelem → u i 0 ≠ 0) {o : Disc.Out}
    (ho : D.residual2 .zero .linear E u 0 = some o) {k : ℕ} (hk : k < D.G.nface) :
    o.uL k = u (D.G.face k).left ∧ (D.G.inner k → o.uR k = u (D.G.face k).right) := by
  obtain ⟨-, a, ha, h1, h2, -⟩ := Disc.residual2_some.1 ho
  have hl := (hok.kind hk).1
  have hrows : ∀ i, i < D.G.m.nelem → i < D.G.rows := fun i hi => Nat.lt_of_lt_of_le hi (Nat.le_add_right _ _)
  have key : (∀ v, a (true, k) v = D.gas.primOfCons (u (D.G.face k).left) v) ∧ (D.G.inner k → ∀ v, a (false, k) v = D.gas.primOfCons (u (D.G.face k).right) v) := by
    unfold Disc.rec2 Disc.recon at ha
    dsimp only at ha
    split_ifs at ha with hall
    have hv : ∀ v x, a x v = ((D.recon1 .linear (fun i => D.gas.primOfCons (u i) v) (fun k => D.gas.primOfCons (D.bstate k (u (D.G.face k).left)) v)
        (fun i d => D.recGrads .zero .linear E u i d v) (fun x => (if x.2 < D.G.m.nbface then (if x.1 then u (D.G.face x.2).left else
          D.gas.primOfCons (D.bstate x.2 (u (D.G.face x.2).left))) else E.old x : St) v)).getD fun _ => 0) x := fun v x => by
      rw [← Option.some.inj ha]
    have hf : ∀ v, D.G.linearFace (fun i => D.gas.primOfCons (u i) v) (fun i d => D.recGrads .zero .linear E u i d v) D.G.mid k =
        some (D.gas.primOfCons (u (D.G.face k).left) v, if D.G.inner k then some (D.gas.primOfCons (u (D.G.face k).right) v) else none) := fun v => by
      have hz : ∀ i, i < D.G.m.nelem → ∀ d, D.recGrads .zero .linear E u i d v = 0 := fun i hi d => by
        simp only [Disc.recGrads, Disc.gradients]
        rw [if_pos hi]; rfl
      unfold Geo.linearFace rd
      rw [if_pos (hrows _ hl), if_pos (hrows _ hl)]
      simp only [Option.bind_some]
      by_cases hin : D.G.inner k
      · have hr := (hok.kind hk).2.2.2.1.1 hin
        rw [if_pos hin, if_pos (hrows _ hr), if_pos (hrows _ hr), if_pos hin]
        simp [linExt, hz _ hl, hz _ hr]
      · rw [if_neg hin, if_neg hin]
        simp [linExt, hz _ hl]
    have hsome : ∀ v, ∃ b, D.recon1 .linear (fun i => D.gas.primOfCons (u i) v) (fun k => D.gas.primOfCons (D.bstate k (u (D.G.face k).left)) v)
        (fun i d => D.recGrads .zero .linear E u i d v) (fun x => (if x.2 < D.G.m.nbface then (if x.1 then u (D.G.face x.2).left else
          D.gas.primOfCons (D.bstate x.2 (u (D.G.face x.2).left))) else E.old x : St) v) = some b ∧ b (true, k) = D.gas.primOfCons (u (D.G.face k).left) v ∧
          (D.G.inner k → b (false, k) = D.gas.primOfCons (u (D.G.face k).right) v) := fun v => by
      obtain ⟨b, hb⟩ := Option.isSome_iff_exists.1 (hall v)
      refine ⟨b, hb, ?_⟩
      simp only [Disc.recon1, Disc.faceArr] at hb
      split_ifs at hb
      rw [← Option.some.inj hb]
      simp only [if_pos hk, hf v, Option.getD_some, if_true]
      exact ⟨trivial, fun hin => by simp [hin]⟩
    refine ⟨fun v => ?_, fun hin v => ?_⟩
    · obtain ⟨b, hb, e, -⟩ := hsome v
      rw [hv, hb, Option.getD_some, e]
    · obtain ⟨b, hb, -, e⟩ := hsome v
      rw [hv, hb, Option.getD_some, e hin]
  refine ⟨?_, fun hin => ?_⟩
  · rw [h1, show a (true, k) = _ from funext key.1, C01_cons_prim_cons _ hg _ (hu _ hl)]
  · rw [h2, if_neg (not_lt.2 hin.1), if_pos hin, show a (false, k) = _ from funext (key.2 hin), C01_cons_prim_cons _ hg _ (hu _ ((hok.kind hk).2.2.2.1.1 hin))]

/-- Hypotheses of `C88_second_order_run_partial` are met: one iteration with Green-Gauss gradients and MUSCL from a gas at rest that is denser in one cell, cells 0, 1 on
rank 0 and 2, 3 on rank 1. -/
example (E1 : Disc.Env) : ∃ s, topological FV.Geo.cross = .ok s ∧ ∃ E,
    Solve forwardEuler (solvers FV.Geo.cross s (fun i => i / 2) 2 (rankEval2 (air1 (rest 1)) FV.Geo.cross s (fun i => i / 2) 2 .greenGauss .muscl E)) ⟨1 / 2, 1, 1, 1⟩
      (split FV.Geo.cross s (fun i => i / 2) bump) 1 .tolErr := by
  obtain ⟨s, hs, -⟩ := FV.Geo.cross_topological
  have hne : FV.Geo.cross.nelem = 4 := by decide +kernel
  have hd : ∀ g, g < FV.Geo.cross.nelem → g / 2 < 2 := fun g hg => by omega
  have hmono : ∀ i j, i < j → j < FV.Geo.cross.nelem → i / 2 ≤ j / 2 := fun i j h _ => Nat.div_le_div_right h.le
  have hok : ((air1 (rest 1)).disc FV.Geo.cross s 0).G.Ok := ⟨cross_conforming, FV.Geo.cross_nozero, hs⟩
  choose S hS _ using fun r => restrict_spec cross_conforming rfl (by decide +kernel) hs (fun i => i / 2) r
  choose s' hs' using fun r => sub_topological cross_conforming rfl (by decide +kernel) hs (hS r)
  obtain ⟨E, hE⟩ := receivedAll_exists cross_conforming rfl (by decide +kernel) hs hd (cross_all hs _) hmono (air1 (rest 1)) .greenGauss .muscl (s' := s') hS fun _ => E1
  obtain ⟨o, ho⟩ := residual2_defined hok (fun k _ => rfl) (gs := .greenGauss) (R := .muscl) (show Disc.ReconOk .muscl from trivial)
    (fun h => by rcases h with h | ⟨K, h⟩ <;> cases h) E1 bump 0
  refine ⟨s, hs, E, (C88_second_order_run_partial cross_conforming rfl (by decide +kernel) hs hd FV.Geo.cross_nozero (cross_all hs _) hmono (air1 (rest 1))
    (fun _ => E1) hS hs' hE (split_represents _ _ _ bump) (c := ⟨1 / 2, 1, 1, 1⟩) (k := 1) (out := .tolErr) ?_ fun j hj m hm => ?_).1⟩
  · have hnorm : ∃ r, (solver ((air1 (rest 1)).disc FV.Geo.cross s 0) fun u => ((air1 (rest 1)).disc FV.Geo.cross s 0).residual2 .greenGauss .muscl E1 u 0).norm bump = some r := by
      have hnn : 0 ≤ energy ((air1 (rest 1)).disc FV.Geo.cross s 0) o.res := by
        refine Finset.sum_nonneg fun l hl => ?_
        rw [cross_area (by have : l < FV.Geo.cross.nelem := Finset.mem_range.1 hl; omega)]
        exact mul_nonneg (mul_self_nonneg _) (by norm_num)
      exact ⟨_, by simp only [solver, ho, Option.bind_some, rootOf]; rw [if_pos hnn]⟩
    obtain ⟨r, hr⟩ := hnorm
    unfold Solve
    rw [if_neg (by norm_num)]
    refine ⟨_, .step ?_ (by simp only [body, init, hr]; rfl) (.done ?_), ?_⟩
    · norm_num [Ode.cond, init, fdiv, FDiv.gt]
    · simp [Ode.cond]
    · simp [forwardEuler]
  · obtain rfl : j = 0 := by omega
    cases hm
    exact ⟨o, ho, fun k _ _ n _ v => llf_swap air _ _ n v⟩

/-- Hypotheses of `C96_second_order_run_partial` are met: one iteration at a small CFL number from the same state, linear reconstruction, any relaxation, any exact linear solver. -/
example (E1 : Disc.Env) (relax : St → St → ℝ) : ∃ s, topological FV.Geo.cross = .ok s ∧ ∃ E, ∀ ksp', ExactOn FV.Geo.cross s (fun i => i / 2) 2 ksp' → ∃ c0, 0 < c0 ∧
    Solve backwardEuler (solversI (air1 (rest 1)) FV.Geo.cross s (fun i => i / 2) 2 (rankEval2 (air1 (rest 1)) FV.Geo.cross s (fun i => i / 2) 2 .zero .linear E)
      (llfJac air) relax ksp') ⟨1 / 2, 1, c0, c0⟩ (split FV.Geo.cross s (fun i => i / 2) bump) 1 .tolErr := by
  obtain ⟨s, hs, -⟩ := FV.Geo.cross_topological
  have hne : FV.Geo.cross.nelem = 4 := by decide +kernel
  have hd : ∀ g, g < FV.Geo.cross.nelem → g / 2 < 2 := fun g hg => by omega
  have hmono : ∀ i j, i < j → j < FV.Geo.cross.nelem → i / 2 ≤ j / 2 := fun i j h _ => Nat.div_le_div_right h.le
  have hok : ((air1 (rest 1)).disc FV.Geo.cross s 0).G.Ok := ⟨cross_conforming, FV.Geo.cross_nozero, hs⟩
  have hbj : ((air1 (rest 1)).disc FV.Geo.cross s 0).BcJOk := fun k _ => ⟨_, rfl, rfl⟩
  have har : ∀ i, i < FV.Geo.cross.nelem → 0 < ((air1 (rest 1)).disc FV.Geo.cross s 0).G.ar i := fun i hi => by rw [cross_area (by omega)]; norm_num
  choose S hS _ using fun r => restrict_spec cross_conforming rfl (by decide +kernel) hs (fun i => i / 2) r
  choose s' hs' using fun r => sub_topological cross_conforming rfl (by decide +kernel) hs (hS r)
  obtain ⟨E, hE⟩ := receivedAll_exists cross_conforming rfl (by decide +kernel) hs hd (cross_all hs _) hmono (air1 (rest 1)) .zero .linear (s' := s') hS fun _ => E1
  obtain ⟨o, ho⟩ := residual2_defined hok (fun k _ => rfl) (gs := .zero) (R := .linear) (show Disc.ReconOk .linear from trivial)
    (fun h => by rcases h with h | ⟨K, h⟩ <;> cases h) E1 bump 0
  have hst : ∀ k, k < ((air1 (rest 1)).disc FV.Geo.cross s 0).G.nface → o.uL k = bump (((air1 (rest 1)).disc FV.Geo.cross s 0).G.face k).left ∧
      (((air1 (rest 1)).disc FV.Geo.cross s 0).G.inner k → o.uR k = bump (((air1 (rest 1)).disc FV.Geo.cross s 0).G.face k).right) := fun k hk =>
    zero_linear_states hok (by norm_num [air1, air, Settings.disc]) (fun i _ => (bump_adm i).rho.ne') ho hk
  obtain ⟨c0, C, hc0, hreg⟩ := C96_small_cfl ((air1 (rest 1)).disc FV.Geo.cross s 0) (llfJac air) bump o har fun i hi =>
    (Disc.C51_positive_bounded hok (air1_gasOk s) (fun k hk => by rw [(hst k hk).1]; exact bump_adm _) (fun k hk hin => by rw [(hst k hk).2 hin]; exact bump_adm _) hi (har i hi)).1
  obtain ⟨ksp, hk⟩ := exact_exists 4
  rw [← hne] at hk
  refine ⟨s, hs, E, fun ksp' hk' => ⟨c0, hc0,
    (C96_second_order_run_partial cross_conforming rfl (by decide +kernel) hs hd FV.Geo.cross_nozero (cross_all hs _) hmono (air1 (rest 1)) hbj
      (fun _ => E1) hS hs' hE (split_represents _ _ _ bump) relax hk hk' (c := ⟨1 / 2, 1, c0, c0⟩) (k := 1) (out := .tolErr) ?_ fun j hj m hm => ?_).1⟩⟩
  · have hnorm : ∃ r, (solverI ((air1 (rest 1)).disc FV.Geo.cross s 0) (fun u => ((air1 (rest 1)).disc FV.Geo.cross s 0).residual2 .zero .linear E1 u 0)
        (llfJac air) relax ksp).norm bump = some r := by
      have hnn : 0 ≤ energy ((air1 (rest 1)).disc FV.Geo.cross s 0) o.res := by
        refine Finset.sum_nonneg fun l hl => ?_
        exact mul_nonneg (mul_self_nonneg _) (har l (Finset.mem_range.1 hl)).le
      exact ⟨_, by simp only [solverI]; rw [if_pos hbj]; simp only [solver, ho, Option.bind_some, rootOf]; rw [if_pos hnn]⟩
    obtain ⟨r, hr⟩ := hnorm
    unfold Solve
    rw [if_neg (by norm_num)]
    refine ⟨_, .step ?_ (by simp only [body, init, hr]; rfl) (.done ?_), ?_⟩
    · norm_num [Ode.cond, init, fdiv, FDiv.gt]
    · simp [Ode.cond]
    · simp [backwardEuler]
  · obtain rfl : j = 0 := by omega
    cases hm
    refine ⟨fun i j f _ _ _ _ => C83_llf _ _ _ _, o, ho, fun k _ _ n _ v => llf_swap air _ _ n v, ?_⟩
    have e : nextCfl backwardEuler ⟨1 / 2, 1, c0, c0⟩ (init backwardEuler ⟨1 / 2, 1, c0, c0⟩ bump) = c0 := by
      have hr : ∀ a b c d e : ℝ, expRamp a a b c d e = a := fun a b c d e => by
        unfold expRamp
        dsimp only
        generalize (if c > 1 then b * c ^ d else b * c ^ e) = y
        split_ifs with h1 h2
        · rfl
        · rfl
        · linarith
      exact hr _ _ _ _ _
    rw [e]
    exact (hreg c0 hc0 le_rfl).1

end Par
end FVENS
