import Verif.Par.Renumber
import Verif.Par.SecondOrder

/-!
# Runs on renumbered meshes (C77)

Steady runs, explicit and implicit, first and second order, on one process with the cells renumbered (`reorderCells`, src/mesh/mesh.cpp:345-400; `preprocessMesh`,
src/mesh/ameshutils.cpp): every iteration moves the cells' states as on the original mesh, norms and CFL numbers reported are the same, and the runs end alike.
-/

namespace FVENS
namespace Par

open Msh FV Flux Ode Lin
open Finset (range mem_range sum_congr)

/-! ### Specification -/

/-- Array `u'` in the new numbering holds the values of `u` in the old one: new cell `i` is old cell `perm i`. -/
def Moved {V : Type*} (N : ℕ) (perm : ℕ → ℕ) (u u' : ℕ → V) : Prop := ∀ i, i < N → u' i = u (perm i)

/-- Run `(k, out)` of `P` from `w` is repeated by `P'` from `w'`: it ends likewise and in no other way; at a normal end the states are related and the norms and CFL numbers
reported are the same. -/
def Repeats {S S' : Type} (kd : Kind) (P : Prob S) (P' : Prob S') (R : S → S' → Prop) (c : Conf) (w : S) (w' : S') (k : ℕ) (out : Ode.Out) : Prop :=
  Solve kd P' c w' k out ∧ (∀ k' out', Solve kd P' c w' k' out' → k' = k ∧ out' = out) ∧
    ∀ m, Loop (Ode.cond c) (body kd P c) (init kd c w) k (some m) →
      ∃ m', Loop (Ode.cond c) (body kd P' c) (init kd c w') k (some m') ∧ R m.u m'.u ∧ m'.resi = m.resi ∧ m'.initres = m.initres ∧ m'.log = m.log

/-! ### Simulation -/

theorem run_sim {S S' : Type} {kd : Kind} (hkd : kd = forwardEuler ∨ kd = backwardEuler) {P : Prob S} {P' : Prob S'} {c : Conf} {R : S → S' → Prop} {good : Mem S → Prop}
    (hn : ∀ m : Mem S, ∀ u', good m → R m.u u' → P'.norm u' = P.norm m.u)
    (hu : ∀ m : Mem S, ∀ u', good m → R m.u u' → R (P.upd (nextCfl kd c m) m.u) (P'.upd (nextCfl kd c m) u'))
    {w : S} {w' : S'} (hw : R w w') {k : ℕ} {out : Ode.Out} (hrun : Solve kd P c w k out)
    (hgood : ∀ j, j < k → ∀ m, traj kd P c w j = some m → good m) : Repeats kd P P' R c w w' k out := by
  have hsim : ∀ {o}, Loop (Ode.cond c) (body kd P c) (init kd c w) k o →
      ∃ o', Loop (Ode.cond c) (body kd P' c) (init kd c w') k o' ∧ (o = none → o' = none) ∧ ∀ t, o = some t → ∃ t', o' = some t' ∧ Same R t t' := fun hloop =>
    loop_sim_cfl hn hu hloop ⟨hw, rfl, rfl, rfl, rfl, rfl, rfl⟩ (fun j hj t ht => hgood j hj t (by rw [traj_iterate]; exact ht))
  have hsol : Solve kd P' c w' k out := by
    unfold Solve at hrun ⊢
    split_ifs at hrun ⊢ with hmx
    · exact hrun
    · obtain ⟨o, l1, l2⟩ := hrun
      obtain ⟨o', s1, s2, s3⟩ := hsim l1
      refine ⟨o', s1, ?_⟩
      cases o with
      | none => rw [s2 rfl]; exact l2
      | some t =>
        obtain ⟨t', rfl, hs⟩ := s3 t rfl
        rw [l2]
        rcases hkd with rfl | rfl
        · simp only [forwardEuler, hs.step]
        · simp only [backwardEuler]
          rw [hs.step, hs.resi, hs.initres]
  refine ⟨hsol, fun k' out' h' => ((C56_terminates kd _ c w').2 k out hsol).2 k' out' h', fun m hm => ?_⟩
  obtain ⟨o', s1, -, s3⟩ := hsim hm
  obtain ⟨t', rfl, hs⟩ := s3 m rfl
  exact ⟨t', s1, hs.u, hs.resi, hs.initres, hs.log⟩

/-! ### One iteration -/

section step
variable {D D' : Disc} {perm : ℕ → ℕ}

theorem sum_perm {N : ℕ} (hp : IsPerm N perm) {M : Type*} [AddCommMonoid M] (f : ℕ → M) : ∑ i ∈ range N, f (perm i) = ∑ i ∈ range N, f i :=
  Finset.sum_bij (fun i _ => perm i) (fun i hi => mem_range.2 (hp.lt i (mem_range.1 hi))) (fun i hi j hj e => hp.inj i j (mem_range.1 hi) (mem_range.1 hj) e)
    (fun j hj => by obtain ⟨i, hi, e⟩ := hp.surj (mem_range.1 hj); exact ⟨i, mem_range.2 hi, e⟩) (fun _ _ => rfl)

/-- Evaluations on the two meshes agree. -/
def AgreeP (D D' : Disc) (perm : ℕ → ℕ) (ev ev' : (ℕ → St) → Option Disc.Out) (u u' : ℕ → St) : Prop :=
  ∃ o o', ev u = some o ∧ ev' u' = some o' ∧ ∀ i, i < D.G.m.nelem → o'.res i = o.res (perm i) ∧ D'.G.ar i = D.G.ar (perm i) ∧
    D'.timestep o'.uL o'.uR i = D.timestep o.uL o.uR (perm i)

theorem moved_norm (hp : IsPerm D.G.m.nelem perm) (hN : D'.G.m.nelem = D.G.m.nelem) {ev ev' : (ℕ → St) → Option Disc.Out} {u u' : ℕ → St}
    (ha : AgreeP D D' perm ev ev' u u') : (solver D' ev').norm u' = (solver D ev).norm u := by
  obtain ⟨o, o', h1, h2, h3⟩ := ha
  simp only [solver, h1, h2, Option.bind_some]
  congr 1
  unfold energy
  rw [hN, ← sum_perm hp fun i => o.res i 3 * o.res i 3 * D.G.ar i]
  exact sum_congr rfl fun i hi => by rw [(h3 i (mem_range.1 hi)).1, (h3 i (mem_range.1 hi)).2.1]

theorem moved_upd (hp : IsPerm D.G.m.nelem perm) (hN : D'.G.m.nelem = D.G.m.nelem) {ev ev' : (ℕ → St) → Option Disc.Out} {u u' : ℕ → St}
    (ha : AgreeP D D' perm ev ev' u u') (hu : Moved D.G.m.nelem perm u u') (cfl : ℝ) :
    Moved D.G.m.nelem perm ((solver D ev).upd cfl u) ((solver D' ev').upd cfl u') := by
  obtain ⟨o, o', h1, h2, h3⟩ := ha
  intro i hi
  simp only [solver, h1, h2, euler]
  rw [hN, if_pos hi, if_pos (hp.lt i hi), (h3 i hi).1, (h3 i hi).2.1, (h3 i hi).2.2, hu i hi]

/-- The system matrix is permuted. -/
theorem moved_sys (hp : IsPerm D.G.m.nelem perm) (hN : D'.G.m.nelem = D.G.m.nelem) (hn' : D'.G.m.nconnface = 0) (h : D.G.Ok) (h' : D'.G.Ok)
    (hc : DiscCopy D D' perm id) {J : St → St → V2 → FJ} {u u' : ℕ → St} (hu : Moved D.G.m.nelem perm u u')
    (hJ : ∀ i j f, i < D.G.m.nelem → j < D.G.m.nelem → f < D.G.m.nnode i → Across D.G.m (i, f) (.cell j) →
      Mirror J (u i) (u j) (fNrm (nodeA D.G.m i f) (nodeB D.G.m i f))) {o o' : Disc.Out}
    (ht : ∀ i, i < D.G.m.nelem → D'.timestep o'.uL o'.uR i = D.timestep o.uL o.uR (perm i)) (cfl : ℝ) {i j : ℕ} (hi : i < D.G.m.nelem) (hj : j < D.G.m.nelem) :
    sysOne D' J u' o' cfl (i, j) = sysOne D J u o cfl (perm i, perm j) := by
  have hrow : ∀ r a, r < D.G.m.nelem → a < D.G.m.nelem → (numbering D'.G.m true perm r = some (perm a) ↔ oneCol D'.G.m r = some a) := fun r a hr ha => by
    unfold oneCol numbering
    rw [hN, if_pos hr, if_pos hr]
    simp only [if_true, Bool.false_eq_true, if_false, Option.some.injEq]
    exact ⟨fun e => hp.inj r a hr ha e, fun e => by rw [e]⟩
  have hnum : IsNumbering D'.G (numbering D'.G.m true perm) := numbering_isNumbering h' true perm fun _ =>
    ⟨fun a b ha hb e => hp.inj a b (hN ▸ ha) (hN ▸ hb) e, fun _ c _ hc => absurd hc (by omega)⟩
  have hmat : D'.jacSum J (oneCol D'.G.m) u' (i, j) = D'.jacSum J (numbering D'.G.m true perm) u' (perm i, perm j) := by
    unfold Disc.jacSum
    refine sum_congr rfl fun k hk => ?_
    obtain ⟨k1, k2, k3, k4, k5⟩ := h'.kind (mem_range.1 hk)
    rw [hN] at k1
    unfold jacUpds
    simp only
    by_cases hb : k < D'.G.m.nbface
    · rw [if_pos hb, if_pos hb]
      simp only [amtAt_ent, hrow _ _ k1 hi, hrow _ _ k1 hj]
    · have hr : (D'.G.face k).right < D.G.m.nelem := by have := k5 (by omega); omega
      rw [if_neg hb, if_neg hb]
      by_cases hin : D'.G.inner k
      · rw [if_pos hin, if_pos hin]
        simp only [amtAt_append, amtAt_ent, hrow _ _ k1 hi, hrow _ _ k1 hj, hrow _ _ hr hi, hrow _ _ hr hj]
      · rw [if_neg hin, if_neg hin]
        simp only [amtAt_append, amtAt_ent, hrow _ _ k1 hi, hrow _ _ k1 hj, hrow _ _ hr hj]
  have hjac := Disc.jac_copy h h' hc (numbering_isNumbering h false id fun e => by cases e) hnum (gcol := oneCol D.G.m) (fun a ha => by
      have ha : a < D.G.m.nelem := by omega
      rw [oneCol_row (hp.lt a ha)]
      unfold numbering
      rw [if_pos (by omega), if_pos rfl]) (u := u) (u' := u') (fun a ha => hu a (by omega)) hJ (i := i) (gi := perm i) (by omega) (by
      unfold numbering
      rw [if_pos (by omega), if_pos rfl]) (perm j)
  unfold sysOne sysPart
  rw [hmat, hjac, hN]
  congr 1
  rw [← sum_perm hp fun l => amtAt (perm i, perm j) (pseudoUpds (nv := 4) id (pseudoDt D.G.ar (D.timestep o.uL o.uR) cfl) l)]
  refine sum_congr rfl fun l hl => ?_
  have hl := mem_range.1 hl
  rw [amtAt_pseudo, amtAt_pseudo]
  simp only [pseudoDt, id, ht l hl, hc.geo.ar l (by omega)]
  have e : ∀ a, a < D.G.m.nelem → (perm l = perm a ↔ l = a) := fun a ha => ⟨fun q => hp.inj l a hl ha q, fun q => by rw [q]⟩
  simp only [Prod.mk.injEq, e i hi, e j hj]

theorem moved_mulRow {N : ℕ} (hp : IsPerm N perm) {A A' : ℕ × ℕ → Blk (Fin 4)} (hA : ∀ i j, i < N → j < N → A' (i, j) = A (perm i, perm j)) {x x' : ℕ → St}
    (hx : Moved N perm x x') {i : ℕ} (hi : i < N) : mulRow N A' x' i = mulRow N A x (perm i) := by
  funext v
  unfold mulRow
  rw [← sum_perm hp fun q => ∑ c, A (perm i, q) v c * x q c]
  exact sum_congr rfl fun q hq => by rw [hA i q hi (mem_range.1 hq), hx q (mem_range.1 hq)]

/-- A vector in the old numbering for one in the new. -/
theorem moved_back {V : Type*} [Inhabited V] {N : ℕ} (hp : IsPerm N perm) (x' : ℕ → V) : ∃ x, Moved N perm x x' := by
  choose! q hq using fun j (hj : j < N) => hp.surj hj
  exact ⟨fun j => x' (q j), fun i hi => by
    show x' i = x' (q (perm i))
    rw [hp.inj _ _ (hq _ (hp.lt i hi)).1 hi (hq _ (hp.lt i hi)).2]⟩

theorem moved_regular {N : ℕ} (hp : IsPerm N perm) {A A' : ℕ × ℕ → Blk (Fin 4)} (hA : ∀ i j, i < N → j < N → A' (i, j) = A (perm i, perm j)) (h : Regular N A) :
    Regular N A' := fun x' hx' i hi => by
  obtain ⟨x, hx⟩ := moved_back hp x'
  rw [hx i hi]
  refine h x (fun j hj => ?_) _ (hp.lt i hi)
  obtain ⟨a, ha, rfl⟩ := hp.surj hj
  rw [← moved_mulRow hp hA hx ha]
  exact hx' a ha

theorem moved_implicit (hp : IsPerm D.G.m.nelem perm) (hN : D'.G.m.nelem = D.G.m.nelem) (hn' : D'.G.m.nconnface = 0) (h : D.G.Ok) (h' : D'.G.Ok)
    (hc : DiscCopy D D' perm id) {J : St → St → V2 → FJ} {ev ev' : (ℕ → St) → Option Disc.Out} {u u' : ℕ → St} (ha : AgreeP D D' perm ev ev' u u')
    (hu : Moved D.G.m.nelem perm u u')
    (hJ : ∀ i j f, i < D.G.m.nelem → j < D.G.m.nelem → f < D.G.m.nnode i → Across D.G.m (i, f) (.cell j) →
      Mirror J (u i) (u j) (fNrm (nodeA D.G.m i f) (nodeB D.G.m i f))) (relax : St → St → ℝ)
    {ksp ksp' : (ℕ × ℕ → Blk (Fin 4)) → (ℕ → St) → ℕ → St} (hk : Exact D.G.m.nelem ksp) (hk' : Exact D.G.m.nelem ksp') (cfl : ℝ)
    (hreg : ∀ o, ev u = some o → Regular D.G.m.nelem (sysOne D J u o cfl)) :
    Moved D.G.m.nelem perm ((solverI D ev J relax ksp).upd cfl u) ((solverI D' ev' J relax ksp').upd cfl u') := by
  obtain ⟨o, o', h1, h2, h3⟩ := ha
  have hA : ∀ i j, i < D.G.m.nelem → j < D.G.m.nelem → sysOne D' J u' o' cfl (i, j) = sysOne D J u o cfl (perm i, perm j) := fun i j hi hj =>
    moved_sys hp hN hn' h h' hc hu hJ (fun l hl => (h3 l hl).2.2) cfl hi hj
  have hR := hreg o h1
  have hR' := moved_regular hp hA hR
  obtain ⟨x, hx⟩ := moved_back hp (ksp' (sysOne D' J u' o' cfl) o'.res)
  have hxe : ∀ j, j < D.G.m.nelem → x j = ksp (sysOne D J u o cfl) o.res j := fun j hj => by
    refine hR.unique (fun a ha => ?_) hj
    obtain ⟨b, hb, rfl⟩ := hp.surj ha
    rw [← moved_mulRow hp hA hx hb, hk' _ _ hR' b hb, hk _ _ hR _ (hp.lt b hb), (h3 b hb).1]
  intro i hi
  simp only [solverI, h1, h2, relaxed]
  rw [hN, if_pos hi, if_pos (hp.lt i hi), hx i hi, hxe _ (hp.lt i hi), hu i hi]

end step

/-! ### Whole runs -/

section run
variable {m : Mesh} {s : FState} {perm : ℕ → ℕ}

theorem agree_moved_first (hp : IsPerm m.nelem perm) (hc : Conforming m) (hn : m.nconnface = 0) (hz : NoZeroFace m) (h : topological m = .ok s) {s' : FState}
    (hs' : topological (reorderCells m perm) = .ok s') (P : Settings) (hb : (P.disc m s 0).BcOk) (hg : 4 ≤ 3 * P.gas.g) {u u' : ℕ → St}
    (hu : Moved m.nelem perm u u') (ha : ∀ i, i < m.nelem → Adm P.gas (u i)) :
    AgreeP (P.disc m s 0) (P.disc (reorderCells m perm) s' 0) perm (fun u => (P.disc m s 0).residual1 u 0)
      (fun u => (P.disc (reorderCells m perm) s' 0).residual1 u 0) u u' := by
  obtain ⟨h1, h2, h3⟩ := reorder_disc hp hc hn hz h hs' P
  have hno : (P.disc (reorderCells m perm) s' 0).G.m.nconnface = 0 := hn
  have hne : (P.disc (reorderCells m perm) s' 0).G.m.nelem = m.nelem := rfl
  obtain ⟨o, o', e1, e2, e3⟩ := Disc.C75_first_order h1 h2 h3 hb (u := u) (u' := u') (fun i hi => hu i (by omega))
    (fun i j hi hj => Disc.swapOk_of_adm _ hg (ha i hi) (ha j hj)) 0 0
  exact ⟨o, o', e1, e2, fun i hi => ⟨by simpa using e3 i hi, h3.geo.ar i hi, Disc.C75_first_order_time_steps h1 h2 h3 (fun i hi => hu i hi) e1 e2 hi⟩⟩

theorem agree_moved_second (hp : IsPerm m.nelem perm) (hc : Conforming m) (hn : m.nconnface = 0) (hz : NoZeroFace m) (h : topological m = .ok s) {s' : FState}
    (hs' : topological (reorderCells m perm) = .ok s') (P : Settings) {gs : GradScheme} {R : ReconScheme} {E E' : (ℕ → St) → Disc.Env} {u u' : ℕ → St}
    (hu : Moved m.nelem perm u u') (hsw : ∃ o, (P.disc m s 0).residual2 gs R (E u) u 0 = some o ∧
      ∀ k, k < (P.disc m s 0).G.nface → (P.disc m s 0).G.inner k → (P.disc m s 0).SwapOk (o.uR k) (o.uL k)) :
    AgreeP (P.disc m s 0) (P.disc (reorderCells m perm) s' 0) perm (fun u => (P.disc m s 0).residual2 gs R (E u) u 0)
      (fun u => (P.disc (reorderCells m perm) s' 0).residual2 gs R (E' u) u 0) u u' := by
  obtain ⟨h1, h2, h3⟩ := reorder_disc hp hc hn hz h hs' P
  obtain ⟨o, ho, hsw⟩ := hsw
  have hb : (P.disc m s 0).BcOk := (Disc.residual2_some.1 ho).1
  have hno : (P.disc (reorderCells m perm) s' 0).G.m.nconnface = 0 := hn
  have hne : (P.disc (reorderCells m perm) s' 0).G.m.nelem = m.nelem := rfl
  have hu' : ∀ i, i < (P.disc (reorderCells m perm) s' 0).G.m.nelem + (P.disc (reorderCells m perm) s' 0).G.m.nconnface → u' i = u (perm i) := fun i hi =>
    hu i (by omega)
  obtain ⟨o', e2, e3⟩ := Disc.C75_second_order (E' := E' u') (r' := 0) h1 h2 h3 hu' hb (fun i a b => absurd b (by omega)) ho (fun ic hic => absurd hic (by omega)) hsw
  obtain ⟨o2, e4, e5⟩ := Disc.C75_face_states (E' := E' u') (R := R) (r' := 0) h1 h2 h3 hu' hb (fun _ _ i a b => absurd b (by omega)) ho
  rw [e2] at e4; cases e4
  exact ⟨o, o', ho, e2, fun i hi => ⟨by simpa using e3 i hi, h3.geo.ar i hi, time_steps_own h1 h2 h3 e5 hi⟩⟩

/-- C77, explicit steady runs, first order: for every conforming mesh on one process, every permutation of its cells, all settings and configurations: if the run on the mesh
ends with `out` after `k` iterations and its states are admissible, the run on the renumbered mesh from the renumbered state repeats it: it ends with `out` after `k`
iterations and not otherwise, with each cell in the state it had, and reports the same norms and CFL numbers. Missing for the full claim: several processes, where
renumbering breaks the mesh (`C77_refuted`). -/
theorem C77_run_partial (hp : IsPerm m.nelem perm) (hc : Conforming m) (hn : m.nconnface = 0) (hz : NoZeroFace m) (h : topological m = .ok s) (P : Settings)
    (hb : (P.disc m s 0).BcOk) (hg : 4 ≤ 3 * P.gas.g) {w w' : ℕ → St} (hw : Moved m.nelem perm w w') {c : Conf} {k : ℕ} {out : Ode.Out}
    (hrun : Solve forwardEuler (single (P.disc m s 0)) c w k out)
    (hgood : ∀ j, j < k → ∀ t, traj forwardEuler (single (P.disc m s 0)) c w j = some t → ∀ i, i < m.nelem → Adm P.gas (t.u i)) :
    ∃ s', topological (reorderCells m perm) = .ok s' ∧
      Repeats forwardEuler (single (P.disc m s 0)) (single (P.disc (reorderCells m perm) s' 0)) (Moved m.nelem perm) c w w' k out := by
  obtain ⟨s', hs'⟩ := reorder_topological hp hc h
  refine ⟨s', hs', ?_⟩
  rw [← solver_first, ← solver_first] at *
  exact run_sim (.inl rfl) (good := fun t : Mem (ℕ → St) => ∀ i, i < m.nelem → Adm P.gas (t.u i))
    (fun t u' ha hu => moved_norm (D := P.disc m s 0) (D' := P.disc (reorderCells m perm) s' 0) hp rfl (agree_moved_first hp hc hn hz h hs' P hb hg hu ha))
    (fun t u' ha hu => moved_upd (D := P.disc m s 0) (D' := P.disc (reorderCells m perm) s' 0) hp rfl (agree_moved_first hp hc hn hz h hs' P hb hg hu ha) hu _) hw hrun hgood

/-- C77, explicit steady runs, second order, every gradient scheme and reconstruction; contents of the memory not yet written (`E`, `E'`) are arbitrary on both meshes. -/
theorem C77_second_order_run_partial (hp : IsPerm m.nelem perm) (hc : Conforming m) (hn : m.nconnface = 0) (hz : NoZeroFace m) (h : topological m = .ok s) (P : Settings)
    {gs : GradScheme} {R : ReconScheme} (E E' : (ℕ → St) → Disc.Env) {w w' : ℕ → St} (hw : Moved m.nelem perm w w') {c : Conf} {k : ℕ} {out : Ode.Out}
    (hrun : Solve forwardEuler (solver (P.disc m s 0) fun u => (P.disc m s 0).residual2 gs R (E u) u 0) c w k out)
    (hgood : ∀ j, j < k → ∀ t, traj forwardEuler (solver (P.disc m s 0) fun u => (P.disc m s 0).residual2 gs R (E u) u 0) c w j = some t →
      ∃ o, (P.disc m s 0).residual2 gs R (E t.u) t.u 0 = some o ∧
        ∀ k, k < (P.disc m s 0).G.nface → (P.disc m s 0).G.inner k → (P.disc m s 0).SwapOk (o.uR k) (o.uL k)) :
    ∃ s', topological (reorderCells m perm) = .ok s' ∧
      Repeats forwardEuler (solver (P.disc m s 0) fun u => (P.disc m s 0).residual2 gs R (E u) u 0)
        (solver (P.disc (reorderCells m perm) s' 0) fun u => (P.disc (reorderCells m perm) s' 0).residual2 gs R (E' u) u 0) (Moved m.nelem perm) c w w' k out := by
  obtain ⟨s', hs'⟩ := reorder_topological hp hc h
  exact ⟨s', hs', run_sim (.inl rfl)
    (fun t u' ha hu => moved_norm (D := P.disc m s 0) (D' := P.disc (reorderCells m perm) s' 0) hp rfl (agree_moved_second hp hc hn hz h hs' P (E' := E') hu ha))
    (fun t u' ha hu => moved_upd (D := P.disc m s 0) (D' := P.disc (reorderCells m perm) s' 0) hp rfl (agree_moved_second hp hc hn hz h hs' P (E' := E') hu ha) hu _) hw hrun hgood⟩

/-- Implicit runs for any evaluation of the residual that follows the cells. -/
theorem implicit_moved (hp : IsPerm m.nelem perm) (hc : Conforming m) (hn : m.nconnface = 0) (hz : NoZeroFace m) (h : topological m = .ok s) {s' : FState}
    (hs' : topological (reorderCells m perm) = .ok s') (P : Settings) (hbj : (P.disc m s 0).BcJOk) {J : St → St → V2 → FJ} (relax : St → St → ℝ)
    {ksp ksp' : (ℕ × ℕ → Blk (Fin 4)) → (ℕ → St) → ℕ → St} (hk : Exact m.nelem ksp) (hk' : Exact m.nelem ksp') {ev ev' : (ℕ → St) → Option Disc.Out}
    {w w' : ℕ → St} (hw : Moved m.nelem perm w w') {c : Conf} {k : ℕ} {out : Ode.Out} (hrun : Solve backwardEuler (solverI (P.disc m s 0) ev J relax ksp) c w k out)
    (hgood : ∀ j, j < k → ∀ t, traj backwardEuler (solverI (P.disc m s 0) ev J relax ksp) c w j = some t →
      (∀ u', Moved m.nelem perm t.u u' → AgreeP (P.disc m s 0) (P.disc (reorderCells m perm) s' 0) perm ev ev' t.u u') ∧
      (∀ i j f, i < m.nelem → j < m.nelem → f < m.nnode i → Across m (i, f) (.cell j) → Mirror J (t.u i) (t.u j) (fNrm (nodeA m i f) (nodeB m i f))) ∧
      ∀ o, ev t.u = some o → Regular m.nelem (sysOne (P.disc m s 0) J t.u o (nextCfl backwardEuler c t))) :
    Repeats backwardEuler (solverI (P.disc m s 0) ev J relax ksp) (solverI (P.disc (reorderCells m perm) s' 0) ev' J relax ksp') (Moved m.nelem perm) c w w' k out := by
  obtain ⟨h1, h2, h3⟩ := reorder_disc hp hc hn hz h hs' P
  have hbj' := bcJOk_copy h2 h3 hbj
  refine run_sim (.inr rfl) (fun t u' ha hu => ?_) (fun t u' ha hu => ?_) hw hrun hgood
  · have := moved_norm (D := P.disc m s 0) (D' := P.disc (reorderCells m perm) s' 0) hp rfl (ha.1 u' hu)
    simp only [solverI]
    rw [if_pos hbj, if_pos hbj', this]
  · exact moved_implicit (D := P.disc m s 0) (D' := P.disc (reorderCells m perm) s' 0) hp rfl hn h1 h2 h3 (ha.1 u' hu) hu ha.2.1 relax hk hk' _ ha.2.2

/-- C77, implicit steady runs, first order, exact linear solvers `ksp`, `ksp'` and any under-relaxation: likewise if moreover the flux Jacobians at faces between cells are mirrored
(C83) and the systems solved on the original mesh are regular. -/
theorem C77_implicit_run_partial (hp : IsPerm m.nelem perm) (hc : Conforming m) (hn : m.nconnface = 0) (hz : NoZeroFace m) (h : topological m = .ok s) (P : Settings)
    (hb : (P.disc m s 0).BcOk) (hg : 4 ≤ 3 * P.gas.g) (hbj : (P.disc m s 0).BcJOk) {J : St → St → V2 → FJ} (relax : St → St → ℝ)
    {ksp ksp' : (ℕ × ℕ → Blk (Fin 4)) → (ℕ → St) → ℕ → St} (hk : Exact m.nelem ksp) (hk' : Exact m.nelem ksp')
    {w w' : ℕ → St} (hw : Moved m.nelem perm w w') {c : Conf} {k : ℕ} {out : Ode.Out} (hrun : Solve backwardEuler (implicit (P.disc m s 0) J relax ksp) c w k out)
    (hgood : ∀ j, j < k → ∀ t, traj backwardEuler (implicit (P.disc m s 0) J relax ksp) c w j = some t →
      (∀ i, i < m.nelem → Adm P.gas (t.u i)) ∧
      (∀ i j f, i < m.nelem → j < m.nelem → f < m.nnode i → Across m (i, f) (.cell j) → Mirror J (t.u i) (t.u j) (fNrm (nodeA m i f) (nodeB m i f))) ∧
      ∀ o, (P.disc m s 0).residual1 t.u 0 = some o → Regular m.nelem (sysOne (P.disc m s 0) J t.u o (nextCfl backwardEuler c t))) :
    ∃ s', topological (reorderCells m perm) = .ok s' ∧
      Repeats backwardEuler (implicit (P.disc m s 0) J relax ksp) (implicit (P.disc (reorderCells m perm) s' 0) J relax ksp') (Moved m.nelem perm) c w w' k out := by
  obtain ⟨s', hs'⟩ := reorder_topological hp hc h
  refine ⟨s', hs', ?_⟩
  rw [← solverI_first, ← solverI_first] at *
  exact implicit_moved hp hc hn hz h hs' P hbj relax hk hk' hw hrun fun j hj t ht => by
    obtain ⟨a, b, d⟩ := hgood j hj t ht
    exact ⟨fun u' hu => agree_moved_first hp hc hn hz h hs' P hb hg hu a, b, d⟩

/-- C77, implicit steady runs with second-order residuals. -/
theorem C77_second_order_implicit_run_partial (hp : IsPerm m.nelem perm) (hc : Conforming m) (hn : m.nconnface = 0) (hz : NoZeroFace m) (h : topological m = .ok s)
    (P : Settings) (hbj : (P.disc m s 0).BcJOk) {gs : GradScheme} {R : ReconScheme} (E E' : (ℕ → St) → Disc.Env) {J : St → St → V2 → FJ} (relax : St → St → ℝ)
    {ksp ksp' : (ℕ × ℕ → Blk (Fin 4)) → (ℕ → St) → ℕ → St} (hk : Exact m.nelem ksp) (hk' : Exact m.nelem ksp')
    {w w' : ℕ → St} (hw : Moved m.nelem perm w w') {c : Conf} {k : ℕ} {out : Ode.Out}
    (hrun : Solve backwardEuler (solverI (P.disc m s 0) (fun u => (P.disc m s 0).residual2 gs R (E u) u 0) J relax ksp) c w k out)
    (hgood : ∀ j, j < k → ∀ t, traj backwardEuler (solverI (P.disc m s 0) (fun u => (P.disc m s 0).residual2 gs R (E u) u 0) J relax ksp) c w j = some t →
      (∀ i j f, i < m.nelem → j < m.nelem → f < m.nnode i → Across m (i, f) (.cell j) → Mirror J (t.u i) (t.u j) (fNrm (nodeA m i f) (nodeB m i f))) ∧
      ∃ o, (P.disc m s 0).residual2 gs R (E t.u) t.u 0 = some o ∧
        (∀ k, k < (P.disc m s 0).G.nface → (P.disc m s 0).G.inner k → (P.disc m s 0).SwapOk (o.uR k) (o.uL k)) ∧
        Regular m.nelem (sysOne (P.disc m s 0) J t.u o (nextCfl backwardEuler c t))) :
    ∃ s', topological (reorderCells m perm) = .ok s' ∧
      Repeats backwardEuler (solverI (P.disc m s 0) (fun u => (P.disc m s 0).residual2 gs R (E u) u 0) J relax ksp)
        (solverI (P.disc (reorderCells m perm) s' 0) (fun u => (P.disc (reorderCells m perm) s' 0).residual2 gs R (E' u) u 0) J relax ksp') (Moved m.nelem perm) c w w' k out := by
  obtain ⟨s', hs'⟩ := reorder_topological hp hc h
  exact ⟨s', hs', implicit_moved hp hc hn hz h hs' P hbj relax hk hk' hw hrun fun j hj t ht => by
    obtain ⟨a, o, b, d, e⟩ := hgood j hj t ht
    exact ⟨fun u' hu => agree_moved_second hp hc hn hz h hs' P (E' := E') hu ⟨o, b, d⟩, a, fun o' ho' => by rw [b] at ho'; cases ho'; exact e⟩⟩

end run

/-! ### Examples -/

/-- Hypotheses of `C77_second_order_run_partial` are met: one iteration with Green-Gauss gradients and MUSCL from a gas at rest that is denser in one cell, cells 0 and 2 swapped. -/
example (E1 E2 : Disc.Env) : ∃ s', topological (reorderCells FV.Geo.cross (Equiv.swap 0 2)) = .ok s' ∧
    Solve forwardEuler (solver ((air1 (rest 1)).disc (reorderCells FV.Geo.cross (Equiv.swap 0 2)) s' 0) fun u =>
      ((air1 (rest 1)).disc (reorderCells FV.Geo.cross (Equiv.swap 0 2)) s' 0).residual2 .greenGauss .muscl E2 u 0) ⟨1 / 2, 1, 1, 1⟩
      (fun i => bump (Equiv.swap 0 2 i)) 1 .tolErr := by
  obtain ⟨s, hs, -⟩ := FV.Geo.cross_topological
  have hne : FV.Geo.cross.nelem = 4 := by decide +kernel
  have hok : ((air1 (rest 1)).disc FV.Geo.cross s 0).G.Ok := ⟨cross_conforming, FV.Geo.cross_nozero, hs⟩
  obtain ⟨o, ho⟩ := residual2_defined hok (fun k _ => rfl) (gs := .greenGauss) (R := .muscl) (show Disc.ReconOk .muscl from trivial)
    (fun h => by rcases h with h | ⟨K, h⟩ <;> cases h) E1 bump 0
  refine Exists.imp (fun s' q => ⟨q.1, q.2.1⟩) (C77_second_order_run_partial (swap_isPerm (a := 0) (b := 2) (by omega) (by omega)) cross_conforming rfl FV.Geo.cross_nozero hs (air1 (rest 1))
    (gs := .greenGauss) (R := .muscl) (fun _ => E1) (fun _ => E2) (w := bump) (w' := fun i => bump (Equiv.swap 0 2 i)) (fun _ _ => rfl) (c := ⟨1 / 2, 1, 1, 1⟩) (k := 1)
    (out := .tolErr) ?_ fun j hj m hm => ?_)
  · have hnorm : ∃ r, (solver ((air1 (rest 1)).disc FV.Geo.cross s 0) fun u => ((air1 (rest 1)).disc FV.Geo.cross s 0).residual2 .greenGauss .muscl E1 u 0).norm bump = some r := by
      have hnn : 0 ≤ energy ((air1 (rest 1)).disc FV.Geo.cross s 0) o.res := by
        refine Finset.sum_nonneg fun l hl => ?_
        rw [cross_area (by have : l < FV.Geo.cross.nelem := Finset.mem_range.1 hl; omega)]
        exact mul_nonneg (mul_self_nonneg _) (by norm_num)
      exact ⟨_, by simp only [solver, ho, Option.bind_some, rootOf]; rw [if_pos hnn]⟩
    obtain ⟨r, hr⟩ := hnorm
    unfold Solve
    rw [if_neg (by norm_num)]
    refine ⟨_, .step ?_ (by simp only [body, init, hr]; rfl) (.done ?_), ?_⟩
    · norm_num [Ode.cond, init, fdiv, FDiv.gt]
    · simp [Ode.cond]
    · simp [forwardEuler]
  · obtain rfl : j = 0 := by omega
    cases hm
    exact ⟨o, ho, fun k _ _ n _ v => llf_swap air _ _ n v⟩

/-- Hypotheses of `C77_run_partial` are met by the same states. -/
example : ∃ s', topological (reorderCells FV.Geo.cross (Equiv.swap 0 2)) = .ok s' ∧
    Solve forwardEuler (single ((air1 (rest 1)).disc (reorderCells FV.Geo.cross (Equiv.swap 0 2)) s' 0)) ⟨1 / 2, 1, 1, 1⟩
      (fun i => bump (Equiv.swap 0 2 i)) 1 .tolErr := by
  obtain ⟨s, hs, -⟩ := FV.Geo.cross_topological
  have hne : FV.Geo.cross.nelem = 4 := by decide +kernel
  have hb : ((air1 (rest 1)).disc FV.Geo.cross s 0).BcOk := fun k _ => rfl
  obtain ⟨o, ho⟩ : ∃ o, ((air1 (rest 1)).disc FV.Geo.cross s 0).residual1 bump 0 = some o := ⟨_, by unfold Disc.residual1; rw [if_pos hb]⟩
  refine Exists.imp (fun s' q => ⟨q.1, q.2.1⟩) (C77_run_partial (swap_isPerm (a := 0) (b := 2) (by omega) (by omega)) cross_conforming rfl FV.Geo.cross_nozero hs (air1 (rest 1)) hb
    (by norm_num [air1, air]) (w := bump) (w' := fun i => bump (Equiv.swap 0 2 i)) (fun _ _ => rfl) (c := ⟨1 / 2, 1, 1, 1⟩) (k := 1) (out := .tolErr) ?_ fun j hj m hm => ?_)
  · have hnorm : ∃ r, (single ((air1 (rest 1)).disc FV.Geo.cross s 0)).norm bump = some r := by
      have hnn : 0 ≤ energy ((air1 (rest 1)).disc FV.Geo.cross s 0) o.res := by
        refine Finset.sum_nonneg fun l hl => ?_
        rw [cross_area (by have : l < FV.Geo.cross.nelem := Finset.mem_range.1 hl; omega)]
        exact mul_nonneg (mul_self_nonneg _) (by norm_num)
      exact ⟨_, by simp only [single, ho, Option.bind_some, rootOf]; rw [if_pos hnn]⟩
    obtain ⟨r, hr⟩ := hnorm
    unfold Solve
    rw [if_neg (by norm_num)]
    refine ⟨_, .step ?_ (by simp only [body, init, hr]; rfl) (.done ?_), ?_⟩
    · norm_num [Ode.cond, init, fdiv, FDiv.gt]
    · simp [Ode.cond]
    · simp [forwardEuler]
  · obtain rfl : j = 0 := by omega
    cases hm
    exact fun i _ => bump_adm i

/-- Hypotheses of `C77_implicit_run_partial` and `C77_second_order_implicit_run_partial` are met: one iteration at a small CFL number. -/
example (E1 E2 : Disc.Env) (relax : St → St → ℝ) {ksp' : (ℕ × ℕ → Blk (Fin 4)) → (ℕ → St) → ℕ → St} (hk' : Exact 4 ksp') :
    ∃ s', topological (reorderCells FV.Geo.cross (Equiv.swap 0 2)) = .ok s' ∧ ∃ c0, 0 < c0 ∧
    Solve backwardEuler (implicit ((air1 (rest 1)).disc (reorderCells FV.Geo.cross (Equiv.swap 0 2)) s' 0) (llfJac air) relax ksp') ⟨1 / 2, 1, c0, c0⟩
      (fun i => bump (Equiv.swap 0 2 i)) 1 .tolErr ∧
    Solve backwardEuler (solverI ((air1 (rest 1)).disc (reorderCells FV.Geo.cross (Equiv.swap 0 2)) s' 0)
      (fun u => ((air1 (rest 1)).disc (reorderCells FV.Geo.cross (Equiv.swap 0 2)) s' 0).residual2 .zero .linear E2 u 0) (llfJac air) relax ksp') ⟨1 / 2, 1, c0, c0⟩
      (fun i => bump (Equiv.swap 0 2 i)) 1 .tolErr := by
  obtain ⟨s, hs, -⟩ := FV.Geo.cross_topological
  have hne : FV.Geo.cross.nelem = 4 := by decide +kernel
  have hb : ((air1 (rest 1)).disc FV.Geo.cross s 0).BcOk := fun k _ => rfl
  have hok : ((air1 (rest 1)).disc FV.Geo.cross s 0).G.Ok := ⟨cross_conforming, FV.Geo.cross_nozero, hs⟩
  have hbj : ((air1 (rest 1)).disc FV.Geo.cross s 0).BcJOk := fun k _ => ⟨_, rfl, rfl⟩
  have har : ∀ i, i < FV.Geo.cross.nelem → 0 < ((air1 (rest 1)).disc FV.Geo.cross s 0).G.ar i := fun i hi => by rw [cross_area (by omega)]; norm_num
  obtain ⟨o, ho⟩ := residual2_defined hok (fun k _ => rfl) (gs := .zero) (R := .linear) (show Disc.ReconOk .linear from trivial)
    (fun h => by rcases h with h | ⟨K, h⟩ <;> cases h) E1 bump 0
  obtain ⟨o1, ho1⟩ : ∃ o, ((air1 (rest 1)).disc FV.Geo.cross s 0).residual1 bump 0 = some o := ⟨_, by unfold Disc.residual1; rw [if_pos hb]⟩
  have hst : ∀ k, k < ((air1 (rest 1)).disc FV.Geo.cross s 0).G.nface → o.uL k = bump (((air1 (rest 1)).disc FV.Geo.cross s 0).G.face k).left ∧
      (((air1 (rest 1)).disc FV.Geo.cross s 0).G.inner k → o.uR k = bump (((air1 (rest 1)).disc FV.Geo.cross s 0).G.face k).right) := fun k hk =>
    zero_linear_states hok (by norm_num [air1, air, Settings.disc]) (fun i _ => (bump_adm i).rho.ne') ho hk
  obtain ⟨c2, C, hc2, hreg2⟩ := C96_small_cfl ((air1 (rest 1)).disc FV.Geo.cross s 0) (llfJac air) bump o har fun i hi =>
    (Disc.C51_positive_bounded hok (air1_gasOk s) (fun k hk => by rw [(hst k hk).1]; exact bump_adm _) (fun k hk hin => by rw [(hst k hk).2 hin]; exact bump_adm _) hi (har i hi)).1
  obtain ⟨c1, hc1, hreg1⟩ := regular_small (u := bump) hok (air1_gasOk s) hb (fun i _ => bump_adm i) har (llfJac air)
  obtain ⟨ksp, hk⟩ := exact_exists 4
  rw [← hne] at hk hk'
  have hnn : ∀ r : ℕ → St, 0 ≤ energy ((air1 (rest 1)).disc FV.Geo.cross s 0) r := fun r =>
    Finset.sum_nonneg fun l hl => mul_nonneg (mul_self_nonneg _) (har l (Finset.mem_range.1 hl)).le
  have hone : ∀ (Q : Prob (ℕ → St)) (c0 : ℝ) (r : ℝ), Q.norm bump = some r → Solve backwardEuler Q ⟨1 / 2, 1, c0, c0⟩ bump 1 .tolErr := fun Q c0 r hr => by
    unfold Solve
    rw [if_neg (by norm_num)]
    refine ⟨_, .step ?_ (by simp only [body, init, hr]; rfl) (.done ?_), ?_⟩
    · norm_num [Ode.cond, init, fdiv, FDiv.gt]
    · simp [Ode.cond]
    · simp [backwardEuler]
  have e : ∀ c0, nextCfl backwardEuler ⟨1 / 2, 1, c0, c0⟩ (init backwardEuler ⟨1 / 2, 1, c0, c0⟩ bump) = c0 := fun c0 => by
    have hr : ∀ a b c d e : ℝ, expRamp a a b c d e = a := fun a b c d e => by
      unfold expRamp
      dsimp only
      generalize (if c > 1 then b * c ^ d else b * c ^ e) = y
      split_ifs with h1 h2
      · rfl
      · rfl
      · linarith
    exact hr _ _ _ _ _
  have hc0 : 0 < min c1 c2 := lt_min hc1 hc2
  have n1 : ∃ r, (implicit ((air1 (rest 1)).disc FV.Geo.cross s 0) (llfJac air) relax ksp).norm bump = some r :=
    ⟨_, by simp only [implicit]; rw [if_pos hbj]; simp only [single, ho1, Option.bind_some, rootOf]; rw [if_pos (hnn _)]⟩
  have n2 : ∃ r, (solverI ((air1 (rest 1)).disc FV.Geo.cross s 0) (fun u => ((air1 (rest 1)).disc FV.Geo.cross s 0).residual2 .zero .linear E1 u 0)
      (llfJac air) relax ksp).norm bump = some r :=
    ⟨_, by simp only [solverI]; rw [if_pos hbj]; simp only [solver, ho, Option.bind_some, rootOf]; rw [if_pos (hnn _)]⟩
  obtain ⟨s', h1, h2⟩ := C77_implicit_run_partial (swap_isPerm (a := 0) (b := 2) (by omega) (by omega)) cross_conforming rfl FV.Geo.cross_nozero hs (air1 (rest 1)) hb
    (by norm_num [air1, air]) hbj (J := llfJac air) relax hk hk' (w := bump) (w' := fun i => bump (Equiv.swap 0 2 i)) (fun _ _ => rfl) (hone _ (min c1 c2) _ n1.choose_spec)
    fun j hj m hm => by
      obtain rfl : j = 0 := by omega
      cases hm
      refine ⟨fun i _ => bump_adm i, fun i j f _ _ _ _ => C83_llf _ _ _ _, fun o ho => ?_⟩
      rw [e]
      exact hreg1 _ hc0 (min_le_left _ _) o ho
  obtain ⟨s2, h3, h4⟩ := C77_second_order_implicit_run_partial (swap_isPerm (a := 0) (b := 2) (by omega) (by omega)) cross_conforming rfl FV.Geo.cross_nozero hs
    (air1 (rest 1)) hbj (gs := .zero) (R := .linear) (fun _ => E1) (fun _ => E2) (J := llfJac air) relax hk hk' (w := bump) (w' := fun i => bump (Equiv.swap 0 2 i))
    (fun _ _ => rfl) (hone _ (min c1 c2) _ n2.choose_spec) fun j hj m hm => by
      obtain rfl : j = 0 := by omega
      cases hm
      refine ⟨fun i j f _ _ _ _ => C83_llf _ _ _ _, o, ho, fun k _ _ n _ v => llf_swap air _ _ n v, ?_⟩
      rw [e]
      exact (hreg2 _ hc0 (min_le_right _ _)).1
  rw [h1] at h3; cases h3
  exact ⟨s', h1, _, hc0, h2.1, h4.1⟩

end Par
end FVENS
