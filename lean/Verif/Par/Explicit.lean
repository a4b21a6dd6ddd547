import Verif.Par.Distributed
import Verif.FV.CopyStep
import Verif.Ode.Steady

/-!
# Explicit steady solver on several processes (C88)

`SteadyForwardEulerSolver` with the first-order discretisation: one process that holds the whole mesh, and `n` processes that hold the subdomains cut out by
`restrict`, update ghost blocks of the solution after every iteration and sum the energy residual over all processes.
-/

namespace FVENS
namespace Par

open Msh FV Flux Ode
open Finset (range)

/-! ### Model -/

open Classical in
/-- Norm from the sum of squares: the root of a negative number (possible with negative areas only) is not a number; src/ode/aodesolver.cpp:226-230, 251-252. -/
noncomputable def rootOf (e : ℝ) : Option ℝ := if 0 ≤ e then some (Real.sqrt e) else none

theorem rootOf_nonneg {e r : ℝ} (h : rootOf e = some r) : 0 ≤ r := by
  unfold rootOf at h
  split_ifs at h
  cases h; exact Real.sqrt_nonneg e

/-- Energy residual of the cells of one process, src/ode/aodesolver.cpp:214-224. -/
noncomputable def energy (D : Disc) (res : ℕ → St) : ℝ := ∑ l ∈ range D.G.m.nelem, res l 3 * res l 3 * D.G.ar l

/-- Update of the cells of one process, src/ode/aodesolver.cpp:196-210. -/
noncomputable def euler (D : Disc) (cfl : ℝ) (o : Disc.Out) (res u : ℕ → St) : ℕ → St := fun l =>
  if l < D.G.m.nelem then fun v => u l v + cfl * D.timestep o.uL o.uR l * 1 / D.G.ar l * res l v else u l

/-- One process: no ghost blocks. Residual from zero (src/ode/aodesolver.cpp:179-189), norm, update. No norm where the discretisation gives no residual. -/
noncomputable def single (D : Disc) : Prob (ℕ → St) where
  norm := fun u => (D.residual1 u 0).bind fun o => rootOf (energy D o.res)
  nonneg := fun u r h => by
    obtain ⟨o, -, h⟩ := Option.bind_eq_some_iff.1 h
    exact rootOf_nonneg h
  upd := fun cfl u => match D.residual1 u 0 with
    | some o => euler D cfl o o.res u
    | none => u

section world
variable (P : Settings) (gm : Mesh) (s : FState) (dist : ℕ → ℕ) (n : ℕ)

/-- Discretisation, local array and result of rank `r`: the ghost blocks of the solution are those of the last forward update (src/ode/aodesolver.cpp:212, 248). -/
noncomputable def rankEval (loc : ℕ → ℕ → St) (r : ℕ) : Option (Disc × Disc.Out) :=
  match restrict gm s dist r with
  | .ok S => match topological S.mesh with
    | .ok s' => ((P.rank gm s dist n r S s').residual1 (rankArray gm s dist n loc r S) 0).map fun o => (P.rank gm s dist n r S s', o)
    | _ => none
  | _ => none

/-- Local residual array of rank `r`. -/
noncomputable def rankRes (loc : ℕ → ℕ → St) (r : ℕ) : ℕ → St := match rankEval P gm s dist n loc r with
  | some (_, o) => o.res
  | none => 0

/-- Block `l` of rank `r` after `VecGhostUpdate(ADD_VALUES, SCATTER_REVERSE)`: to a block of its own all ghost blocks that name its position are added; src/ode/aodesolver.cpp:191-192 with
the positions of src/mesh/mesh.cpp:764-772. -/
noncomputable def ghostAdd (arr : ℕ → ℕ → St) (r l : ℕ) : St :=
  arr r l + ∑ q ∈ range n, match restrict gm s dist q with
    | .ok S => ∑ ic ∈ range S.mesh.nconnface, if l < localSize gm s dist r ∧ S.mesh.connface ic 3 = offset gm s dist r + l then arr q (S.mesh.nelem + ic) else 0
    | _ => 0

open Classical in
/-- `n` processes. The norm is summed over the processes (src/ode/aodesolver.cpp:226-230). -/
noncomputable def several : Prob (ℕ → ℕ → St) where
  norm := fun loc => if ∀ r, r < n → (rankEval P gm s dist n loc r).isSome then
      rootOf (∑ r ∈ range n, match rankEval P gm s dist n loc r with
        | some (D, _) => energy D (ghostAdd gm s dist n (rankRes P gm s dist n loc) r)
        | none => 0)
    else none
  nonneg := fun u r h => by
    split_ifs at h
    exact rootOf_nonneg h
  upd := fun cfl loc r => match rankEval P gm s dist n loc r with
    | some (D, o) => euler D cfl o (ghostAdd gm s dist n (rankRes P gm s dist n loc) r) (loc r)
    | none => loc r

end world

/-! ### Simulation of loops -/

section sim
variable {S S' : Type} {k : Kind} {P : Prob S} {P' : Prob S'} {c : Conf}

/-- Two runs are at the same point: states related, all else equal. -/
structure Same (R : S → S' → Prop) (m : Mem S) (m' : Mem S') : Prop where
  u : R m.u m'.u
  step : m'.step = m.step
  resi : m'.resi = m.resi
  resiold : m'.resiold = m.resiold
  initres : m'.initres = m.initres
  cfl : m'.cfl = m.cfl
  log : m'.log = m.log

/-- A loop is followed step by step by another if norms agree and updates keep the relation, at the states that the first visits. -/
theorem loop_sim {R : S → S' → Prop} {good : S → Prop}
    (hn : ∀ u u', good u → R u u' → P'.norm u' = P.norm u) (hu : ∀ a u u', good u → R u u' → R (P.upd a u) (P'.upd a u'))
    {m : Mem S} {n : ℕ} {o : Option (Mem S)} (h : Loop (Ode.cond c) (body k P c) m n o) :
    ∀ {m' : Mem S'}, Same R m m' → (∀ j, j < n → ∀ t, (fun x : Option (Mem S) => x.bind (body k P c))^[j] (some m) = some t → good t.u) →
    ∃ o', Loop (Ode.cond c) (body k P' c) m' n o' ∧ (o = none → o' = none) ∧ ∀ t, o = some t → ∃ t', o' = some t' ∧ Same R t t' := by
  have hcond : ∀ {m : Mem S} {m' : Mem S'}, Same R m m' → (Ode.cond c m' ↔ cond c m) := fun hs => by
    unfold Ode.cond; rw [hs.resi, hs.initres, hs.step]
  induction h with
  | done h1 =>
    intro m' hs _
    exact ⟨_, .done (fun h => h1 ((hcond hs).1 h)), fun h => by simp at h, fun t ht => by cases ht; exact ⟨m', rfl, hs⟩⟩
  | @step m m1 n o h1 h2 h3 ih =>
    intro m' hs hg
    have hgood : good m.u := hg 0 (by omega) m rfl
    obtain ⟨m1', hb, hs'⟩ : ∃ m1', body k P' c m' = some m1' ∧ Same R m1 m1' := by
      simp only [body] at h2 ⊢
      rw [hn m.u m'.u hgood hs.u]
      cases hr : P.norm m.u with
      | none => rw [hr] at h2; cases h2
      | some r =>
        rw [hr] at h2
        cases h2
        refine ⟨_, rfl, ?_⟩
        rw [hs.cfl, hs.resiold, hs.resi, hs.step, hs.initres, hs.log]
        exact ⟨hu _ _ _ hgood hs.u, rfl, rfl, rfl, rfl, rfl, rfl⟩
    obtain ⟨o', l1, l2, l3⟩ := ih hs' fun j hj t ht => hg (j + 1) (by omega) t (by
      rw [Function.iterate_succ_apply, Option.bind_some, h2]; exact ht)
    exact ⟨o', .step ((hcond hs).2 h1) hb l1, l2, l3⟩
  | @throws m h1 h2 =>
    intro m' hs hg
    have hgood : good m.u := hg 0 (by omega) m rfl
    refine ⟨none, .throws ((hcond hs).2 h1) ?_, fun _ => rfl, fun t ht => by cases ht⟩
    simp only [body] at h2 ⊢
    rw [hn m.u m'.u hgood hs.u]
    cases hr : P.norm m.u with
    | none => rfl
    | some r => rw [hr] at h2; cases h2

theorem traj_iterate (u : S) (j : ℕ) : traj k P c u j = (fun x : Option (Mem S) => x.bind (body k P c))^[j] (some (init k c u)) := by
  induction j with
  | zero => rfl
  | succ j ih => rw [Function.iterate_succ_apply', ← ih]; rfl

end sim

/-! ### C88 -/

section part
variable {gm : Mesh} {s : FState} {dist : ℕ → ℕ}

/-- Sums over the cells of all ranks are sums over all cells. -/
theorem sum_ranks {M : Type*} [AddCommMonoid M] (hc : Conforming gm) (hn : gm.nconnface = 0) (ht : gm.nbtag ≤ 4) (h : topological gm = .ok s) {n : ℕ}
    (hd : ∀ g, g < gm.nelem → dist g < n) {S : ℕ → Sub} (hS : ∀ r, restrict gm s dist r = .ok (S r)) (F : ℕ → M) :
    ∑ r ∈ range n, ∑ l ∈ range (S r).mesh.nelem, F ((S r).cells.getD l 0) = ∑ i ∈ range gm.nelem, F i := by
  rw [← Finset.sum_fiberwise_of_maps_to (s := range gm.nelem) (t := range n) (g := dist)
    (fun i hi => Finset.mem_range.2 (hd i (Finset.mem_range.1 hi)))]
  refine Finset.sum_congr rfl fun r _ => ?_
  obtain ⟨S', hS', hsub, -⟩ := restrict_spec hc hn ht h dist r
  rw [hS r] at hS'; cases hS'
  have hnd : (S r).cells.Nodup := hsub.cellsAsc.imp (fun h => Nat.ne_of_lt h)
  have he : (range gm.nelem).filter (fun c => dist c = r) = (S r).cells.toFinset := by
    ext c
    rw [Finset.mem_filter, Finset.mem_range, List.mem_toFinset, hsub.cells]
  rw [he, List.sum_toFinset _ hnd, hsub.nelem, ← List.toFinset_range, List.sum_toFinset _ List.nodup_range]
  congr 1
  refine List.ext_getElem (by simp) fun l h1 h2 => ?_
  simp only [List.getElem_map, List.getElem_range]
  rw [List.getD_eq_getElem?_getD, List.getElem?_eq_getElem (by simpa using h2), Option.getD_some]

/-- Rows of connectivity ghosts receive nothing. -/
theorem residual1_ghost {D : Disc} (hok : D.G.Ok) {u : ℕ → St} {o : Disc.Out} (ho : D.residual1 u 0 = some o) {l : ℕ} (hl : D.G.m.nelem ≤ l) : o.res l = 0 := by
  unfold Disc.residual1 at ho
  split_ifs at ho
  cases ho
  simp only [Disc.fluxes]
  rw [assemble_eq, Pi.zero_apply, zero_add]
  refine Finset.sum_eq_zero fun k hk => ?_
  obtain ⟨k1, k2, -⟩ := hok.kind (k := k) (Finset.mem_range.1 hk)
  unfold contrib
  rw [if_neg (by rintro ⟨-, h5⟩; exact absurd h5 (not_lt.2 hl)), if_neg (by
    intro h5
    have k1 : (faceAt D.G.s.faces k).left < D.G.m.nelem := k1
    omega), sub_zero]

variable (hc : Conforming gm) (hn : gm.nconnface = 0) (ht : gm.nbtag ≤ 4) (h : topological gm = .ok s) (hz : NoZeroFace gm)
  (hall : AllRegistered gm s dist) {n : ℕ} (hd : ∀ g, g < gm.nelem → dist g < n)
  (hmono : ∀ i j, i < j → j < gm.nelem → dist i ≤ dist j) (P : Settings) (hb : (P.disc gm s 0).BcOk) (hg : 4 ≤ 3 * P.gas.g)
include hc hn ht h hz hall hd hmono hb hg

/-- All that a rank computes in an evaluation: residual and time steps of its cells are those of the single process, its ghost rows stay zero. -/
theorem rankEval_spec {w : ℕ → St} (hw : ∀ i, i < gm.nelem → Adm P.gas (w i)) {loc : ℕ → ℕ → St} (hl : Represents gm s dist loc w) :
    ∃ o, (P.disc gm s 0).residual1 w 0 = some o ∧ ∀ r, ∃ S D o', restrict gm s dist r = .ok S ∧ rankEval P gm s dist n loc r = some (D, o') ∧
      D.G.m = S.mesh ∧ (∀ l, l < S.mesh.nelem → o'.res l = o.res (S.cells.getD l 0) ∧ D.G.ar l = (P.disc gm s 0).G.ar (S.cells.getD l 0) ∧
        D.timestep o'.uL o'.uR l = (P.disc gm s 0).timestep o.uL o.uR (S.cells.getD l 0)) ∧ ∀ l, S.mesh.nelem ≤ l → o'.res l = 0 := by
  have hsw : ∀ i j, i < gm.nelem → j < gm.nelem → (P.disc gm s 0).SwapOk (w i) (w j) := fun i j hi hj =>
    Disc.swapOk_of_adm _ hg (hw i hi) (hw j hj)
  obtain ⟨o, ho⟩ : ∃ o, (P.disc gm s 0).residual1 w 0 = some o := ⟨_, by unfold Disc.residual1; rw [if_pos hb]⟩
  refine ⟨o, ho, fun r => ?_⟩
  obtain ⟨S, hS, hsub, hcon, -⟩ := restrict_spec hc hn ht h dist r
  obtain ⟨s', hs'⟩ := sub_topological hc hn ht h hS
  have hpos : ∀ ic, ic < S.mesh.nconnface → position gm.nelem dist (S.mesh.connface ic 3) = S.mesh.connface ic 3 := fun ic hic => by
    obtain ⟨g, j, k, r1, r2, -, -, r5, -⟩ := hcon.row ic hic
    rw [r5]; exact position_id_iff.2 hmono j r2.2.1.1
  obtain ⟨hok, τ, hcp⟩ := rank_copy hc hn ht h hz hall hd P hS hpos hs'
  have hu : ∀ i, i < S.mesh.nelem + S.mesh.nconnface → rankArray gm s dist n loc r S i = w (rowCell S i) :=
    fun i hi => rankArray_row hc hn ht h hd hl hS hpos hi
  have hD : (P.disc gm s 0).G.Ok := ⟨hc, hz, h⟩
  obtain ⟨o2, o', h1, h2, h3⟩ := Disc.C75_first_order hD hok hcp hb (u := w) (u' := rankArray gm s dist n loc r S) hu hsw 0 0
  rw [ho, Option.some.injEq] at h1
  subst h1
  have hrow : ∀ l, l < S.mesh.nelem → rowCell S l = S.cells.getD l 0 := fun l hl => by rw [rowCell, if_pos hl]
  refine ⟨S, P.rank gm s dist n r S s', o', hS, ?_, rfl, fun l hl => ⟨?_, ?_, ?_⟩, fun l hl => ?_⟩
  · simp only [rankEval, hS, hs', h2, Option.map_some]
  · have := h3 l hl
    simp only [Pi.zero_apply, sub_zero] at this
    rw [this, hrow l hl]
  · rw [← hrow l hl]; exact hcp.geo.ar l hl
  · rw [← hrow l hl]
    exact Disc.C75_first_order_time_steps hD hok hcp (fun i hi => hu i (by have : i < S.mesh.nelem := hi; omega)) ho h2 hl
  · exact residual1_ghost hok h2 hl

omit hz hall hd hb hg in
/-- C88, the reverse ghost update of any vector: the value of an owned cell `g` becomes the sum of its value and the values of all ghost blocks, on all ranks, that stand for `g`. -/
theorem C88_ghost_sum_partial {S : ℕ → Sub} (hS : ∀ r, restrict gm s dist r = .ok (S r)) (arr : ℕ → ℕ → St) {r l g : ℕ} (hl : (S r).cells[l]? = some g) :
    ghostAdd gm s dist n arr r l = arr r l + ∑ q ∈ range n, ∑ ic ∈ range (S q).mesh.nconnface, if rowCell (S q) ((S q).mesh.nelem + ic) = g then arr q ((S q).mesh.nelem + ic) else 0 := by
  obtain ⟨S', hS', hsub, -⟩ := restrict_spec hc hn ht h dist r
  rw [hS r] at hS'; cases hS'
  have hgn : g < gm.nelem := ((hsub.cells g).1 (List.mem_of_getElem? hl)).1
  have hpos : g = offset gm s dist r + l := by rw [← position_eq hc hn ht h (hS r) hl]; exact (position_id_iff.2 hmono g hgn).symm
  unfold ghostAdd
  simp only [hS]
  congr 1
  refine Finset.sum_congr rfl fun q _ => Finset.sum_congr rfl fun ic _ => ?_
  have e2 : rowCell (S q) ((S q).mesh.nelem + ic) = (S q).mesh.connface ic 3 := by unfold rowCell; rw [if_neg (by omega), Nat.add_sub_cancel_left]
  rw [e2, ← hpos]
  simp only [show l < localSize gm s dist r by simp only [localSize, hS]; rw [hsub.nelem]; exact (List.getElem?_eq_some_iff.1 hl).1, true_and]

/-- C88, one iteration: from a state held by the ranks, norm and updated state are those of the single process; the ghost blocks added to the residual are zero. -/
theorem C88_iteration_partial {w : ℕ → St} (hw : ∀ i, i < gm.nelem → Adm P.gas (w i)) {loc : ℕ → ℕ → St} (hl : Represents gm s dist loc w) (cfl : ℝ) :
    (several P gm s dist n).norm loc = (single (P.disc gm s 0)).norm w ∧
      Represents gm s dist ((several P gm s dist n).upd cfl loc) ((single (P.disc gm s 0)).upd cfl w) := by
  obtain ⟨o, ho, hr⟩ := rankEval_spec hc hn ht h hz hall hd hmono P hb hg hw hl
  choose S D o' hS hev hm hcell hghost using hr
  have hadd : ∀ r l, ghostAdd gm s dist n (rankRes P gm s dist n loc) r l = (o' r).res l := fun r l => by
    unfold ghostAdd
    have e : ∀ q, rankRes P gm s dist n loc q = (o' q).res := fun q => by simp only [rankRes, hev q]
    rw [e, Finset.sum_eq_zero fun q _ => ?_, add_zero]
    simp only [hS q]
    refine Finset.sum_eq_zero fun ic _ => ?_
    rw [e, hghost q _ (by omega)]
    simp
  have hspec : ∀ r, IsSub gm dist r (S r) := fun r => by
    obtain ⟨S', hS', hsub, -⟩ := restrict_spec hc hn ht h dist r
    rw [hS r] at hS'; cases hS'
    exact hsub
  constructor
  · simp only [several, single, ho, Option.bind_some]
    rw [if_pos fun r _ => by rw [hev r]; rfl]
    congr 1
    simp only [hev]
    unfold energy
    rw [show (P.disc gm s 0).G.m.nelem = gm.nelem from rfl,
      ← sum_ranks hc hn ht h hd hS fun i => o.res i 3 * o.res i 3 * (P.disc gm s 0).G.ar i]
    refine Finset.sum_congr rfl fun r _ => ?_
    rw [hm r]
    refine Finset.sum_congr rfl fun l hl => ?_
    obtain ⟨c1, c2, -⟩ := hcell r l (Finset.mem_range.1 hl)
    rw [hadd, c1, c2]
  · intro r S' hS' l g hlg
    rw [hS r] at hS'; cases hS'
    have hll : l < (S r).mesh.nelem := by rw [(hspec r).nelem]; exact (List.getElem?_eq_some_iff.1 hlg).1
    have hgg : (S r).cells.getD l 0 = g := by rw [List.getD_eq_getElem?_getD, hlg, Option.getD_some]
    have hgn : g < gm.nelem := (((hspec r).cells g).1 (List.mem_of_getElem? hlg)).1
    obtain ⟨c1, c2, c3⟩ := hcell r l hll
    rw [hgg] at c1 c2 c3
    simp only [several, single, ho, hev, euler]
    rw [hm r, if_pos hll, show (P.disc gm s 0).G.m.nelem = gm.nelem from rfl, if_pos hgn, hadd, c1, c2, c3, hl r (S r) (hS r) l g hlg]

/-- C88, whole runs: for every number of processes, every assignment of cells that is non-decreasing along the cell numbering and registers all interface faces, every
configuration and initial state: if the single process ends with `out` after `k` iterations and its states stay admissible, the processes together end with `out` after `k`
iterations and cannot end otherwise; at a normal end their states are those of the single process, and so are the norms and CFL numbers reported. Missing for the
full claim: other assignments, for which it fails (`C88_refuted`). -/
theorem C88_run_partial {w : ℕ → St} {loc : ℕ → ℕ → St} (hl : Represents gm s dist loc w) {c : Conf} {k : ℕ} {out : Ode.Out}
    (hrun : Solve forwardEuler (single (P.disc gm s 0)) c w k out)
    (hadm : ∀ j, j < k → ∀ m, traj forwardEuler (single (P.disc gm s 0)) c w j = some m → ∀ i, i < gm.nelem → Adm P.gas (m.u i)) :
    Solve forwardEuler (several P gm s dist n) c loc k out ∧
    (∀ k' out', Solve forwardEuler (several P gm s dist n) c loc k' out' → k' = k ∧ out' = out) ∧
    ∀ m, Loop (Ode.cond c) (body forwardEuler (single (P.disc gm s 0)) c) (init forwardEuler c w) k (some m) →
      ∃ m', Loop (Ode.cond c) (body forwardEuler (several P gm s dist n) c) (init forwardEuler c loc) k (some m') ∧
        Represents gm s dist m'.u m.u ∧ m'.resi = m.resi ∧ m'.initres = m.initres ∧ m'.log = m.log := by
  have hsim : ∀ {o}, Loop (Ode.cond c) (body forwardEuler (single (P.disc gm s 0)) c) (init forwardEuler c w) k o →
      ∃ o', Loop (Ode.cond c) (body forwardEuler (several P gm s dist n) c) (init forwardEuler c loc) k o' ∧ (o = none → o' = none) ∧
        ∀ t, o = some t → ∃ t', o' = some t' ∧ Same (fun (u : ℕ → St) (u' : ℕ → ℕ → St) => Represents gm s dist u' u) t t' := fun hloop =>
    loop_sim (R := fun (u : ℕ → St) (u' : ℕ → ℕ → St) => Represents gm s dist u' u) (good := fun u => ∀ i, i < gm.nelem → Adm P.gas (u i))
      (fun u u' hgd hR => (C88_iteration_partial hc hn ht h hz hall hd hmono P hb hg hgd hR 0).1)
      (fun a u u' hgd hR => (C88_iteration_partial hc hn ht h hz hall hd hmono P hb hg hgd hR a).2) hloop
      ⟨hl, rfl, rfl, rfl, rfl, rfl, rfl⟩ (fun j hj t ht => hadm j hj t (by rw [traj_iterate]; exact ht))
  have hsol : Solve forwardEuler (several P gm s dist n) c loc k out := by
    unfold Solve at hrun ⊢
    split_ifs at hrun ⊢ with hmx
    · exact hrun
    · obtain ⟨o, l1, l2⟩ := hrun
      obtain ⟨o', s1, s2, s3⟩ := hsim l1
      refine ⟨o', s1, ?_⟩
      cases o with
      | none => rw [s2 rfl]; exact l2
      | some t =>
        obtain ⟨t', rfl, hs⟩ := s3 t rfl
        rw [l2]
        simp only [forwardEuler, hs.step]
  refine ⟨hsol, fun k' out' h' => ((C56_terminates forwardEuler _ c loc).2 k out hsol).2 k' out' h', fun m hm => ?_⟩
  obtain ⟨o', s1, -, s3⟩ := hsim hm
  obtain ⟨t', rfl, hs⟩ := s3 m rfl
  exact ⟨t', s1, hs.u, hs.resi, hs.initres, hs.log⟩

omit hd hmono in
/-- C88 for the trivial partitioner, src/mesh/meshpartitioning.cpp:15-22, 354-367. -/
theorem C88_trivial_partial (hr : 0 < n) (hp : trivialPartition gm.nelem n = .ok dist) {w : ℕ → St} {loc : ℕ → ℕ → St} (hl : Represents gm s dist loc w)
    {c : Conf} {k : ℕ} {out : Ode.Out} (hrun : Solve forwardEuler (single (P.disc gm s 0)) c w k out)
    (hadm : ∀ j, j < k → ∀ m, traj forwardEuler (single (P.disc gm s 0)) c w j = some m → ∀ i, i < gm.nelem → Adm P.gas (m.u i)) :
    Solve forwardEuler (several P gm s dist n) c loc k out := by
  have hv := fun i hi => trivial_values hr hp (i := i) hi
  refine (C88_run_partial hc hn ht h hz hall (n := n) (fun g hg => ?_) (fun i j hij hj => ?_) P hb hg hl hrun hadm).1
  · rw [(hv g hg).2]; omega
  · rw [(hv i (by omega)).2, (hv j hj).2]
    have : i / (gm.nelem / n) ≤ j / (gm.nelem / n) := Nat.div_le_div_right hij.le
    omega

end part

/-! ### The square cut by its diagonals, on two ranks -/

theorem cross_area {i : ℕ} (hi : i < 4) (P : Settings) (s : FState) : (P.disc FV.Geo.cross s 0).G.ar i = 1 / 4 := by
  show (area FV.Geo.cross i).getD 0 = 1 / 4
  obtain rfl | rfl | rfl | rfl : i = 0 ∨ i = 1 ∨ i = 2 ∨ i = 3 := by omega
  all_goals
    norm_num [area, FV.Geo.cross, triMesh, triArea]

/-- Hypotheses of `C88_run_partial` are met: one iteration from a gas at rest that is denser in one cell, cells 0, 1 on rank 0 and 2, 3 on rank 1. -/
example : ∃ s, topological FV.Geo.cross = .ok s ∧
    Solve forwardEuler (several (air1 (rest 1)) FV.Geo.cross s (fun i => i / 2) 2) ⟨1 / 2, 1, 1, 1⟩ (split FV.Geo.cross s (fun i => i / 2) bump) 1 .tolErr := by
  obtain ⟨s, hs, -⟩ := FV.Geo.cross_topological
  have hne : FV.Geo.cross.nelem = 4 := by decide +kernel
  refine ⟨s, hs, (C88_run_partial cross_conforming rfl (by decide +kernel) hs FV.Geo.cross_nozero (cross_all hs _)
    (fun g hg => by show g / 2 < 2; omega) (fun i j h _ => Nat.div_le_div_right h.le) (air1 (rest 1)) (fun k _ => rfl)
    (by norm_num [air1, air]) (split_represents _ _ _ bump) (c := ⟨1 / 2, 1, 1, 1⟩) (k := 1) (out := .tolErr) ?_ fun j hj m hm i hi => ?_).1⟩
  · have hb : ((air1 (rest 1)).disc FV.Geo.cross s 0).BcOk := fun k _ => rfl
    obtain ⟨o, ho⟩ : ∃ o, ((air1 (rest 1)).disc FV.Geo.cross s 0).residual1 bump 0 = some o := ⟨_, by unfold Disc.residual1; rw [if_pos hb]⟩
    have hnorm : ∃ r, (single ((air1 (rest 1)).disc FV.Geo.cross s 0)).norm bump = some r := by
      have hnn : 0 ≤ energy ((air1 (rest 1)).disc FV.Geo.cross s 0) o.res := by
        refine Finset.sum_nonneg fun l hl => ?_
        rw [cross_area (by have : l < FV.Geo.cross.nelem := Finset.mem_range.1 hl; omega)]
        exact mul_nonneg (mul_self_nonneg _) (by norm_num)
      exact ⟨_, by simp only [single, ho, Option.bind_some, rootOf]; rw [if_pos hnn]⟩
    obtain ⟨r, hr⟩ := hnorm
    unfold Solve
    rw [if_neg (by norm_num)]
    refine ⟨_, .step ?_ (by simp only [body, init, hr]; rfl) (.done ?_), ?_⟩
    · norm_num [Ode.cond, init, fdiv, FDiv.gt]
    · simp [Ode.cond]
    · simp [forwardEuler]
  · obtain rfl : j = 0 := by omega
    cases hm
    exact bump_adm i

/-- Hypotheses of `C88_ghost_sum_partial` are met by the square of four triangles split between two ranks; rank 1 owns cell 2 at local position 0. -/
example (arr : ℕ → ℕ → St) : ∃ s, topological FV.Geo.cross = .ok s ∧ ∃ S : ℕ → Sub, (∀ r, restrict FV.Geo.cross s (fun i => i / 2) r = .ok (S r)) ∧ ∃ l,
    (S 1).cells[l]? = some 2 ∧ ghostAdd FV.Geo.cross s (fun i => i / 2) 2 arr 1 l = arr 1 l + ∑ q ∈ range 2, ∑ ic ∈ range (S q).mesh.nconnface,
      if rowCell (S q) ((S q).mesh.nelem + ic) = 2 then arr q ((S q).mesh.nelem + ic) else 0 := by
  obtain ⟨s, hs, -⟩ := FV.Geo.cross_topological
  have hne : FV.Geo.cross.nelem = 4 := by decide +kernel
  choose S hS hsub _ using fun r => restrict_spec cross_conforming rfl (by decide +kernel) hs (fun i => i / 2) r
  obtain ⟨l, hl⟩ := List.mem_iff_getElem?.1 (((hsub 1).cells 2).2 ⟨by omega, rfl⟩)
  exact ⟨s, hs, S, hS, l, hl, C88_ghost_sum_partial cross_conforming rfl (by decide +kernel) hs (n := 2) (fun i j h _ => Nat.div_le_div_right h.le) hS arr hl⟩

/-- C88 fails for other assignments of cells to ranks. The square's triangles 0 and 2 are on rank 0, 1 and 3 on rank 1; all interface faces are registered and the state is
admissible: after one iteration with any positive CFL number the ranks hold another state than the single process. -/
theorem C88_refuted : ∃ s, Conforming FV.Geo.cross ∧ topological FV.Geo.cross = .ok s ∧ AllRegistered FV.Geo.cross s (fun i => i % 2) ∧
    ∃ (P : Settings) (w : ℕ → St) (loc : ℕ → ℕ → St), (∀ i, Adm P.gas (w i)) ∧ Represents FV.Geo.cross s (fun i => i % 2) loc w ∧
      (P.disc FV.Geo.cross s 0).BcOk ∧ ∀ cfl : ℝ, 0 < cfl →
        ¬ Represents FV.Geo.cross s (fun i => i % 2) ((several P FV.Geo.cross s (fun i => i % 2) 2).upd cfl loc) ((single (P.disc FV.Geo.cross s 0)).upd cfl w) := by
  obtain ⟨s, hs, hf⟩ := FV.Geo.cross_topological
  have hne : FV.Geo.cross.nelem = 4 := by decide +kernel
  refine ⟨s, cross_conforming, hs, cross_all hs _, air1 (rest 1), bump, _, bump_adm, split_represents _ _ _ _, fun k _ => rfl, fun cfl hcfl hrep => ?_⟩
  have hok : ((air1 (rest 1)).disc FV.Geo.cross s 0).G.Ok := ⟨cross_conforming, FV.Geo.cross_nozero, hs⟩
  obtain ⟨o, h1, h2, S, s', h3, h4, ⟨l, h5⟩, h6⟩ := cross_interleaved hs hf 0
  obtain ⟨o', h7, h8⟩ := h6 0
  obtain ⟨S', hS', hsub, -⟩ := restrict_spec cross_conforming rfl (by decide +kernel) hs (fun i => i % 2) 0
  rw [h3] at hS'; cases hS'
  have hll : l < S.mesh.nelem := by rw [hsub.nelem]; exact (List.getElem?_eq_some_iff.1 h5).1
  have hloc := split_represents FV.Geo.cross s (fun i => i % 2) bump 0 S h3 l 0 h5
  have := hrep 0 S h3 l 0 h5
  have hev : rankEval (air1 (rest 1)) FV.Geo.cross s (fun i => i % 2) 2 (split FV.Geo.cross s (fun i => i % 2) bump) 0 =
      some ((air1 (rest 1)).rank FV.Geo.cross s (fun i => i % 2) 2 0 S s', o') := by
    simp only [rankEval, h3, h4, h7, Option.map_some]
  have hghost : ∀ q S, restrict FV.Geo.cross s (fun i => i % 2) q = .ok S → ∀ l, S.mesh.nelem ≤ l →
      rankRes (air1 (rest 1)) FV.Geo.cross s (fun i => i % 2) 2 (split FV.Geo.cross s (fun i => i % 2) bump) q l = 0 := by
    intro q S hS l hl
    obtain ⟨s2, hs2⟩ := sub_topological cross_conforming rfl (by decide +kernel) hs hS
    have hok2 : ((air1 (rest 1)).rank FV.Geo.cross s (fun i => i % 2) 2 q S s2).G.Ok :=
      rank_ok cross_conforming rfl (by decide +kernel) hs FV.Geo.cross_nozero (cross_all hs _) _ hS hs2
    simp only [rankRes, rankEval, hS, hs2]
    cases hres : ((air1 (rest 1)).rank FV.Geo.cross s (fun i => i % 2) 2 q S s2).residual1
        (rankArray FV.Geo.cross s (fun i => i % 2) 2 (split FV.Geo.cross s (fun i => i % 2) bump) q S) 0 with
    | none => rfl
    | some o => exact residual1_ghost hok2 hres hl
  have hadd : ghostAdd FV.Geo.cross s (fun i => i % 2) 2 (rankRes (air1 (rest 1)) FV.Geo.cross s (fun i => i % 2) 2
      (split FV.Geo.cross s (fun i => i % 2) bump)) 0 l = 0 := by
    unfold ghostAdd
    rw [Finset.sum_eq_zero fun q _ => ?_, add_zero]
    · simp only [rankRes, hev]; exact h8 l hll
    · cases hq : restrict FV.Geo.cross s (fun i => i % 2) q with
      | ok S2 =>
        simp only
        refine Finset.sum_eq_zero fun ic _ => ?_
        rw [hghost q S2 hq _ (by omega), ite_self]
      | throws => rfl
      | ub => rfl
  have hpos : 0 < ((air1 (rest 1)).disc FV.Geo.cross s 0).timestep o.uL o.uR 0 := by
    have hoo := h1
    unfold Disc.residual1 at hoo
    split_ifs at hoo
    cases hoo
    refine (Disc.C51_positive_bounded hok ⟨?_, ?_, ?_, ?_⟩ (fun k _ => bump_adm _) (fun k _ hin => ?_) (i := 0) (by show 0 < FV.Geo.cross.nelem; omega)
      (by rw [cross_area (by omega)]; norm_num)).1
    · norm_num [Settings.disc, air1, air]
    · norm_num [Settings.disc, air1, air]
    · norm_num [Settings.disc, air1, air]
    · norm_num [Settings.disc, air1, air]
    · show Adm air (if k < ((air1 (rest 1)).disc FV.Geo.cross s 0).G.m.nbface then _ else _)
      rw [if_neg (not_lt.2 hin.1)]; exact bump_adm _
  have e1 := congrFun this 0
  simp only [several, single, hev, h1, euler] at e1
  rw [if_pos (show l < ((air1 (rest 1)).rank FV.Geo.cross s (fun i => i % 2) 2 0 S s').G.m.nelem from hll), if_pos (by show 0 < FV.Geo.cross.nelem; omega), hadd, hloc,
    cross_area (by omega)] at e1
  simp only [Pi.zero_apply, mul_zero, add_zero] at e1
  have h2 : 0 < o.res 0 0 := h2
  have := mul_pos (mul_pos hcfl hpos) h2
  linarith

end Par
end FVENS
