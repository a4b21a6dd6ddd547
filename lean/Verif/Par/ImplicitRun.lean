import Verif.Par.Implicit

/-!
# Implicit steady solver on several processes (C96)
-/

namespace FVENS
namespace Par

open Msh FV Flux Ode Lin
open Finset (range sum_eq_zero sum_congr)

/-! ### Model -/

section world
variable (P : Settings) (gm : Mesh) (s : FState) (dist : ℕ → ℕ) (n : ℕ)

/-- Blocks that rank `r` adds to the system matrix, in rows and columns named by global cell numbers: src/spatial/aspatial.cpp:242-340, src/ode/aodesolver.cpp:305-328. -/
noncomputable def rankSys (J : St → St → V2 → FJ) (loc : ℕ → ℕ → St) (cfl : ℝ) (r : ℕ) (x : ℕ × ℕ) : Blk (Fin 4) :=
  match restrict gm s dist r with
  | .ok S => match topological S.mesh with
    | .ok s' => match (P.rank gm s dist n r S s').residual1 (rankArray gm s dist n loc r S) 0 with
      | some o => sysPart (P.rank gm s dist n r S s') J (rankCol S) (fun l => S.cells.getD l 0) (rankArray gm s dist n loc r S) o cfl x
      | none => 0
    | _ => 0
  | _ => 0

/-- System matrix after `MatAssemblyBegin/End`, src/ode/aodesolver.cpp:471-472: contributions of all ranks added up. -/
noncomputable def sysAll (J : St → St → V2 → FJ) (loc : ℕ → ℕ → St) (cfl : ℝ) (x : ℕ × ℕ) : Blk (Fin 4) := ∑ r ∈ range n, rankSys P gm s dist n J loc cfl r x

/-- Every boundary face of rank `r` has a condition with a Jacobian. -/
def rankJOk (r : ℕ) : Prop :=
  match restrict gm s dist r with
  | .ok S => match topological S.mesh with
    | .ok s' => (P.rank gm s dist n r S s').BcJOk
    | _ => False
  | _ => False

open Classical in
/-- One iteration on `n` processes, src/ode/aodesolver.cpp:420-530: ghost blocks of the residual are added to their owners (452, 469), the linear solver sees the distributed
matrix and right-hand side, each process updates its own cells. -/
noncomputable def implicits (J : St → St → V2 → FJ) (relax : St → St → ℝ) (ksp : (ℕ × ℕ → Blk (Fin 4)) → (ℕ → ℕ → St) → ℕ → ℕ → St) : Prob (ℕ → ℕ → St) where
  norm := fun loc => if ∀ r, r < n → rankJOk P gm s dist n r then (several P gm s dist n).norm loc else none
  nonneg := fun u r h => by
    split_ifs at h
    exact (several P gm s dist n).nonneg u r h
  upd := fun cfl loc r => match rankEval P gm s dist n loc r with
    | some (D, _) => relaxed D.G.m.nelem relax (ksp (sysAll P gm s dist n J loc cfl) (ghostAdd gm s dist n (rankRes P gm s dist n loc)) r) (loc r)
    | none => loc r

/-! ### Specification -/

/-- A linear solver on distributed vectors that solves every system with a regular matrix: block `p` of the product of matrix and result is block `p` of the right-hand side. -/
def ExactOn (ksp : (ℕ × ℕ → Blk (Fin 4)) → (ℕ → ℕ → St) → ℕ → ℕ → St) : Prop :=
  ∀ A b, Regular gm.nelem A → ∀ p, p < gm.nelem → matMult gm s dist n A (ksp A b) p = (blockAt gm s dist n b p).getD 0

end world

/-! ### Loops whose updates agree only for the CFL number in use -/

section sim
variable {S S' : Type} {k : Kind} {P : Prob S} {P' : Prob S'} {c : Conf}

/-- CFL number handed to the update in the next iteration. -/
noncomputable def nextCfl (k : Kind) (c : Conf) (m : Mem S) : ℝ := k.used c (expRamp c.cflinit c.cflfin m.cfl (m.resiold / m.resi) k.up k.down)

theorem loop_sim_cfl {R : S → S' → Prop} {good : Mem S → Prop}
    (hn : ∀ m : Mem S, ∀ u', good m → R m.u u' → P'.norm u' = P.norm m.u)
    (hu : ∀ m : Mem S, ∀ u', good m → R m.u u' → R (P.upd (nextCfl k c m) m.u) (P'.upd (nextCfl k c m) u'))
    {m : Mem S} {n : ℕ} {o : Option (Mem S)} (h : Loop (Ode.cond c) (body k P c) m n o) :
    ∀ {m' : Mem S'}, Same R m m' → (∀ j, j < n → ∀ t, (fun x : Option (Mem S) => x.bind (body k P c))^[j] (some m) = some t → good t) →
    ∃ o', Loop (Ode.cond c) (body k P' c) m' n o' ∧ (o = none → o' = none) ∧ ∀ t, o = some t → ∃ t', o' = some t' ∧ Same R t t' := by
  have hcond : ∀ {m : Mem S} {m' : Mem S'}, Same R m m' → (Ode.cond c m' ↔ Ode.cond c m) := fun hs => by
    unfold Ode.cond; rw [hs.resi, hs.initres, hs.step]
  induction h with
  | done h1 =>
    intro m' hs _
    exact ⟨_, .done (fun h => h1 ((hcond hs).1 h)), fun h => by simp at h, fun t ht => by cases ht; exact ⟨m', rfl, hs⟩⟩
  | @step m m1 n o h1 h2 h3 ih =>
    intro m' hs hg
    have hgood : good m := hg 0 (by omega) m rfl
    obtain ⟨m1', hb, hs'⟩ : ∃ m1', body k P' c m' = some m1' ∧ Same R m1 m1' := by
      simp only [body] at h2 ⊢
      rw [hn m m'.u hgood hs.u]
      cases hr : P.norm m.u with
      | none => rw [hr] at h2; cases h2
      | some r =>
        rw [hr] at h2
        cases h2
        refine ⟨_, rfl, ?_⟩
        rw [hs.cfl, hs.resiold, hs.resi, hs.step, hs.initres, hs.log]
        exact ⟨hu m m'.u hgood hs.u, rfl, rfl, rfl, rfl, rfl, rfl⟩
    obtain ⟨o', l1, l2, l3⟩ := ih hs' fun j hj t ht => hg (j + 1) (by omega) t (by
      rw [Function.iterate_succ_apply, Option.bind_some, h2]; exact ht)
    exact ⟨o', .step ((hcond hs).2 h1) hb l1, l2, l3⟩
  | @throws m h1 h2 =>
    intro m' hs hg
    have hgood : good m := hg 0 (by omega) m rfl
    refine ⟨none, .throws ((hcond hs).2 h1) ?_, fun _ => rfl, fun t ht => by cases ht⟩
    simp only [body] at h2 ⊢
    rw [hn m m'.u hgood hs.u]
    cases hr : P.norm m.u with
    | none => rfl
    | some r => rw [hr] at h2; cases h2

end sim

/-! ### C96 -/

section part
variable {gm : Mesh} {s : FState} {dist : ℕ → ℕ}

/-- The local blocks of any distributed vector hold some field. -/
theorem represents_some (hc : Conforming gm) (hn : gm.nconnface = 0) (ht : gm.nbtag ≤ 4) (h : topological gm = .ok s) {V : Type*} (loc : ℕ → ℕ → V) :
    ∃ w, Represents gm s dist loc w := by
  choose S hS hsub _ using fun r => restrict_spec hc hn ht h dist r
  refine ⟨fun g => loc (dist g) ((S (dist g)).cells.idxOf g), fun r S' hS' l g hlg => ?_⟩
  rw [hS r] at hS'; cases hS'
  have hg := ((hsub r).cells g).1 (List.mem_of_getElem? hlg)
  have hnd : (S r).cells.Nodup := (hsub r).cellsAsc.imp (fun h => Nat.ne_of_lt h)
  obtain ⟨hlt, e⟩ := List.getElem?_eq_some_iff.1 hlg
  have : (S r).cells.idxOf g = l := by rw [← e]; exact hnd.idxOf_getElem l hlt
  simp only [hg.2, this]

/-- Boundary conditions of a rank have Jacobians if all have. -/
theorem bcJOk_copy {D D' : Disc} {σ τ : ℕ → ℕ} (h' : D'.G.Ok) (hcp : DiscCopy D D' σ τ) (hb : D.BcJOk) : D'.BcJOk := fun k hk => by
  obtain ⟨i, f, hi, hf, ha⟩ := Disc.bnd_across h'.conf hk
  have h2 := hcp.geo.mesh.across i hi f hf _ ha
  obtain ⟨o, h3, h4⟩ := hb (τ k) h2.1
  exact ⟨o, by rw [hcp.bc, hcp.tag k hk]; exact h3, by rw [hcp.gas]; exact h4⟩

variable (hc : Conforming gm) (hn : gm.nconnface = 0) (ht : gm.nbtag ≤ 4) (h : topological gm = .ok s) (hz : NoZeroFace gm)
  (hall : AllRegistered gm s dist) {n : ℕ} (hd : ∀ g, g < gm.nelem → dist g < n)
  (hmono : ∀ i j, i < j → j < gm.nelem → dist i ≤ dist j) (P : Settings) (hb : (P.disc gm s 0).BcOk) (hg : 4 ≤ 3 * P.gas.g)
include hc hn ht h hz hall hd hmono hb hg

/-- The distributed system matrix is that of the single process. -/
theorem sysAll_eq {J : St → St → V2 → FJ} {w : ℕ → St} (hw : ∀ i, i < gm.nelem → Adm P.gas (w i))
    (hJ : ∀ i j f, i < gm.nelem → j < gm.nelem → f < gm.nnode i → Across gm (i, f) (.cell j) →
      Mirror J (w i) (w j) (fNrm (nodeA gm i f) (nodeB gm i f)))
    {loc : ℕ → ℕ → St} (hl : Represents gm s dist loc w) (cfl : ℝ) {o : Disc.Out} (ho : (P.disc gm s 0).residual1 w 0 = some o) {gi : ℕ} (hgi : gi < gm.nelem) (gc : ℕ) :
    sysAll P gm s dist n J loc cfl (gi, gc) = sysOne (P.disc gm s 0) J w o cfl (gi, gc) := by
  obtain ⟨o2, ho2, hr⟩ := rankEval_spec hc hn ht h hz hall hd hmono P hb hg hw hl
  rw [ho] at ho2; cases ho2
  choose S D o' hS hev hm hcell hghost using hr
  choose s' hs' using fun r => sub_topological hc hn ht h (hS r)
  have hDo : ∀ r, (P.rank gm s dist n r (S r) (s' r)).residual1 (rankArray gm s dist n loc r (S r)) 0 = some (o' r) ∧ D r = P.rank gm s dist n r (S r) (s' r) := fun r => by
    have e := hev r
    simp only [rankEval, hS r, hs' r, Option.map_eq_some_iff] at e
    obtain ⟨a, ha, hb⟩ := e
    obtain ⟨e1, e2⟩ := Prod.mk.inj hb
    exact ⟨by rw [ha, e2], e1.symm⟩
  obtain ⟨Ar, A, hA⟩ := assembledOn_exists P gm s dist n J loc (nt := fun _ => 1) (fun _ => one_pos) S s'
  obtain ⟨A1, hA1⟩ := assembleJac_exists (G := (P.disc gm s 0).G) (gcol := oneCol gm)
    (Lb := fun k => (P.disc gm s 0).blkBoundary J ((P.disc gm s 0).bjac k) k (w ((P.disc gm s 0).G.face k).left))
    (L := fun k => ((P.disc gm s 0).blkInterior J k (w ((P.disc gm s 0).G.face k).left) (w ((P.disc gm s 0).G.face k).right)).dfdl)
    (U := fun k => ((P.disc gm s 0).blkInterior J k (w ((P.disc gm s 0).G.face k).left) (w ((P.disc gm s 0).G.face k).right)).dfdr) one_pos (fun _ => 0)
  have hblk := C82_blocks_partial hc hn ht h hz hall hd hmono P hJ hl hS hs' hA (nt1 := 1) hA1 hgi gc
  have hD1 : (P.disc gm s 0).G.Ok := ⟨hc, hz, h⟩
  have e1 : A1 (gi, gc) = (P.disc gm s 0).jacSum J (oneCol gm) w (gi, gc) := by rw [Disc.assembleFlow_eq hD1 hA1, zero_add]
  have e2 : ∀ r, r < n → Ar r (gi, gc) = (P.rank gm s dist n r (S r) (s' r)).jacSum J (rankCol (S r)) (rankArray gm s dist n loc r (S r)) (gi, gc) := fun r hr => by
    rw [Disc.assembleFlow_eq (rank_ok hc hn ht h hz hall P (hS r) (hs' r)) (hA.1 r hr), zero_add]
    rfl
  rw [e1, hA.2, sum_congr rfl fun r hr => e2 r (Finset.mem_range.1 hr)] at hblk
  have e3 : ∀ r, rankSys P gm s dist n J loc cfl r (gi, gc) =
      (P.rank gm s dist n r (S r) (s' r)).jacSum J (rankCol (S r)) (rankArray gm s dist n loc r (S r)) (gi, gc) +
        ∑ l ∈ range (S r).mesh.nelem, (fun g => amtAt (gi, gc) (pseudoUpds (nv := 4) id
          (pseudoDt (P.disc gm s 0).G.ar ((P.disc gm s 0).timestep o.uL o.uR) cfl) g)) ((S r).cells.getD l 0) := fun r => by
    simp only [rankSys, hS r, hs' r, (hDo r).1, sysPart]
    congr 1
    refine sum_congr rfl fun l hl => ?_
    obtain ⟨-, c2, c3⟩ := hcell r l (Finset.mem_range.1 hl)
    rw [(hDo r).2] at c2 c3
    rw [amtAt_pseudo, amtAt_pseudo]
    simp only [pseudoDt, id, c2, c3]
  rw [sysAll, sum_congr rfl fun r _ => e3 r, Finset.sum_add_distrib, hblk,
    sum_ranks hc hn ht h hd hS fun g => amtAt (gi, gc) (pseudoUpds (nv := 4) id (pseudoDt (P.disc gm s 0).G.ar ((P.disc gm s 0).timestep o.uL o.uR) cfl) g)]
  rfl

/-- C96, one iteration on several processes: with exact linear solvers and a regular system matrix, norm and updated state are those of the single process. -/
theorem C96_iteration_partial (hbj : (P.disc gm s 0).BcJOk) {J : St → St → V2 → FJ} {w : ℕ → St} (hw : ∀ i, i < gm.nelem → Adm P.gas (w i))
    (hJ : ∀ i j f, i < gm.nelem → j < gm.nelem → f < gm.nnode i → Across gm (i, f) (.cell j) →
      Mirror J (w i) (w j) (fNrm (nodeA gm i f) (nodeB gm i f)))
    {loc : ℕ → ℕ → St} (hl : Represents gm s dist loc w) (relax : St → St → ℝ)
    {ksp : (ℕ × ℕ → Blk (Fin 4)) → (ℕ → St) → ℕ → St} (hk : Exact gm.nelem ksp)
    {ksp' : (ℕ × ℕ → Blk (Fin 4)) → (ℕ → ℕ → St) → ℕ → ℕ → St} (hk' : ExactOn gm s dist n ksp') :
    (implicits P gm s dist n J relax ksp').norm loc = (implicit (P.disc gm s 0) J relax ksp).norm w ∧
      ∀ cfl, (∀ o, (P.disc gm s 0).residual1 w 0 = some o → Regular gm.nelem (sysOne (P.disc gm s 0) J w o cfl)) →
        Represents gm s dist ((implicits P gm s dist n J relax ksp').upd cfl loc) ((implicit (P.disc gm s 0) J relax ksp).upd cfl w) := by
  obtain ⟨o, ho, hr⟩ := rankEval_spec hc hn ht h hz hall hd hmono P hb hg hw hl
  choose S D o' hS hev hm hcell hghost using hr
  choose s' hs' using fun r => sub_topological hc hn ht h (hS r)
  have hspec : ∀ r, IsSub gm dist r (S r) := fun r => by
    obtain ⟨S', hS', hsub, -⟩ := restrict_spec hc hn ht h dist r
    rw [hS r] at hS'; cases hS'
    exact hsub
  have hadd : ∀ r l, ghostAdd gm s dist n (rankRes P gm s dist n loc) r l = (o' r).res l := fun r l => by
    unfold ghostAdd
    have e : ∀ q, rankRes P gm s dist n loc q = (o' q).res := fun q => by simp only [rankRes, hev q]
    rw [e, Finset.sum_eq_zero fun q _ => ?_, add_zero]
    simp only [hS q]
    refine Finset.sum_eq_zero fun ic _ => ?_
    rw [e, hghost q _ (by omega)]
    simp
  constructor
  · have hrk : ∀ r, r < n → rankJOk P gm s dist n r := fun r _ => by
      obtain ⟨S', hS', -, hcon, -⟩ := restrict_spec hc hn ht h dist r
      rw [hS r] at hS'; cases hS'
      have hpos : ∀ ic, ic < (S r).mesh.nconnface → position gm.nelem dist ((S r).mesh.connface ic 3) = (S r).mesh.connface ic 3 := fun ic hic => by
        obtain ⟨g, j, k, r1, r2, -, -, r5, -⟩ := hcon.row ic hic
        rw [r5]; exact position_id_iff.2 hmono j r2.2.1.1
      obtain ⟨hok, τ, hcp⟩ := rank_copy hc hn ht h hz hall hd P (hS r) hpos (hs' r)
      simp only [rankJOk, hS r, hs' r]
      exact bcJOk_copy hok hcp hbj
    simp only [implicits, implicit]
    rw [if_pos hrk, if_pos hbj]
    exact (C88_iteration_partial hc hn ht h hz hall hd hmono P hb hg hw hl 0).1
  · intro cfl hreg
    have hR := hreg o ho
    have hAeq : ∀ gi gc, gi < gm.nelem → sysAll P gm s dist n J loc cfl (gi, gc) = sysOne (P.disc gm s 0) J w o cfl (gi, gc) := fun gi gc hgi =>
      sysAll_eq hc hn ht h hz hall hd hmono P hb hg hw hJ hl cfl ho hgi gc
    have hR' : Regular gm.nelem (sysAll P gm s dist n J loc cfl) := hR.congr fun i q hi _ => (hAeq i q hi).symm
    set dl := ksp' (sysAll P gm s dist n J loc cfl) (ghostAdd gm s dist n (rankRes P gm s dist n loc)) with hdl
    obtain ⟨x, hx⟩ := represents_some hc hn ht h (dist := dist) dl
    have hbrep : Represents gm s dist (ghostAdd gm s dist n (rankRes P gm s dist n loc)) o.res := by
      intro r S' hS' l g hlg
      rw [hS r] at hS'; cases hS'
      have hll : l < (S r).mesh.nelem := by rw [(hspec r).nelem]; exact (List.getElem?_eq_some_iff.1 hlg).1
      rw [hadd, (hcell r l hll).1, List.getD_eq_getElem?_getD, hlg, Option.getD_some]
    have hpos : ∀ p, p < gm.nelem → position gm.nelem dist p = p := position_id_iff.2 hmono
    have hsolve : ∀ p, p < gm.nelem → mulRow gm.nelem (sysOne (P.disc gm s 0) J w o cfl) x p = o.res p := fun p hp => by
      have e := hk' (sysAll P gm s dist n J loc cfl) (ghostAdd gm s dist n (rankRes P gm s dist n loc)) hR' p hp
      have e1 := blockAt_position hc hn ht h hd hbrep hp
      rw [hpos p hp] at e1
      rw [e1, Option.getD_some, ← hdl] at e
      rw [← e]
      refine mulRow_congr (x := x) (y := fun q => (blockAt gm s dist n dl q).getD 0) (fun q _ => (hAeq p q hp).symm) fun q hq => ?_
      have e2 := blockAt_position hc hn ht h hd hx hq
      rw [hpos q hq] at e2
      rw [e2, Option.getD_some]
    have hxe : ∀ g, g < gm.nelem → x g = ksp (sysOne (P.disc gm s 0) J w o cfl) o.res g := fun g hg' =>
      hR.unique (fun i hi => (hsolve i hi).trans (hk _ o.res hR i hi).symm) hg'
    intro r S' hS' l g hlg
    rw [hS r] at hS'; cases hS'
    have hll : l < (S r).mesh.nelem := by rw [(hspec r).nelem]; exact (List.getElem?_eq_some_iff.1 hlg).1
    have hgn : g < gm.nelem := (((hspec r).cells g).1 (List.mem_of_getElem? hlg)).1
    have e1 : (implicits P gm s dist n J relax ksp').upd cfl loc r = relaxed (S r).mesh.nelem relax (dl r) (loc r) := by
      simp only [implicits, hev r, ← hm r, ← hdl]
    have e2 : (implicit (P.disc gm s 0) J relax ksp).upd cfl w = relaxed gm.nelem relax (ksp (sysOne (P.disc gm s 0) J w o cfl) o.res) w := by
      simp only [implicit, ho]; rfl
    rw [e1, e2]
    simp only [relaxed, if_pos hll, if_pos hgn, hx r (S r) (hS r) l g hlg, hxe g hgn, hl r (S r) (hS r) l g hlg]

/-- C96, whole runs: for every number of processes, every assignment of cells that is non-decreasing along the cell numbering and registers all interface faces, every
configuration, relaxation and pair of exact linear solvers: if the single process ends with `out` after `k` iterations, its states stay admissible, the flux Jacobian treats
the sides of faces alike there and its system matrices are regular, then the processes together end with `out` after `k` iterations and cannot end otherwise; at a normal
end their states, norms and CFL numbers are those of the single process. Missing for the full claim: other assignments (C82_refuted, C88_refuted), inexact linear solvers. -/
theorem C96_run_partial (hbj : (P.disc gm s 0).BcJOk) {J : St → St → V2 → FJ} {w : ℕ → St} {loc : ℕ → ℕ → St} (hl : Represents gm s dist loc w) (relax : St → St → ℝ)
    {ksp : (ℕ × ℕ → Blk (Fin 4)) → (ℕ → St) → ℕ → St} (hk : Exact gm.nelem ksp)
    {ksp' : (ℕ × ℕ → Blk (Fin 4)) → (ℕ → ℕ → St) → ℕ → ℕ → St} (hk' : ExactOn gm s dist n ksp') {c : Conf} {k : ℕ} {out : Ode.Out}
    (hrun : Solve backwardEuler (implicit (P.disc gm s 0) J relax ksp) c w k out)
    (hgood : ∀ j, j < k → ∀ m, traj backwardEuler (implicit (P.disc gm s 0) J relax ksp) c w j = some m → (∀ i, i < gm.nelem → Adm P.gas (m.u i)) ∧
      (∀ i j f, i < gm.nelem → j < gm.nelem → f < gm.nnode i → Across gm (i, f) (.cell j) → Mirror J (m.u i) (m.u j) (fNrm (nodeA gm i f) (nodeB gm i f))) ∧
      ∀ o, (P.disc gm s 0).residual1 m.u 0 = some o → Regular gm.nelem (sysOne (P.disc gm s 0) J m.u o (nextCfl backwardEuler c m))) :
    Solve backwardEuler (implicits P gm s dist n J relax ksp') c loc k out ∧
    (∀ k' out', Solve backwardEuler (implicits P gm s dist n J relax ksp') c loc k' out' → k' = k ∧ out' = out) ∧
    ∀ m, Loop (Ode.cond c) (body backwardEuler (implicit (P.disc gm s 0) J relax ksp) c) (init backwardEuler c w) k (some m) →
      ∃ m', Loop (Ode.cond c) (body backwardEuler (implicits P gm s dist n J relax ksp') c) (init backwardEuler c loc) k (some m') ∧
        Represents gm s dist m'.u m.u ∧ m'.resi = m.resi ∧ m'.initres = m.initres ∧ m'.log = m.log := by
  have hsim : ∀ {o}, Loop (Ode.cond c) (body backwardEuler (implicit (P.disc gm s 0) J relax ksp) c) (init backwardEuler c w) k o →
      ∃ o', Loop (Ode.cond c) (body backwardEuler (implicits P gm s dist n J relax ksp') c) (init backwardEuler c loc) k o' ∧ (o = none → o' = none) ∧
        ∀ t, o = some t → ∃ t', o' = some t' ∧ Same (fun (u : ℕ → St) (u' : ℕ → ℕ → St) => Represents gm s dist u' u) t t' := fun hloop =>
    loop_sim_cfl (R := fun (u : ℕ → St) (u' : ℕ → ℕ → St) => Represents gm s dist u' u)
      (good := fun m => (∀ i, i < gm.nelem → Adm P.gas (m.u i)) ∧
        (∀ i j f, i < gm.nelem → j < gm.nelem → f < gm.nnode i → Across gm (i, f) (.cell j) → Mirror J (m.u i) (m.u j) (fNrm (nodeA gm i f) (nodeB gm i f))) ∧
        ∀ o, (P.disc gm s 0).residual1 m.u 0 = some o → Regular gm.nelem (sysOne (P.disc gm s 0) J m.u o (nextCfl backwardEuler c m)))
      (fun m u' hgd hR => (C96_iteration_partial hc hn ht h hz hall hd hmono P hb hg hbj hgd.1 hgd.2.1 hR relax hk hk').1)
      (fun m u' hgd hR => (C96_iteration_partial hc hn ht h hz hall hd hmono P hb hg hbj hgd.1 hgd.2.1 hR relax hk hk').2 _ hgd.2.2) hloop
      ⟨hl, rfl, rfl, rfl, rfl, rfl, rfl⟩ (fun j hj t ht => hgood j hj t (by rw [traj_iterate]; exact ht))
  have hsol : Solve backwardEuler (implicits P gm s dist n J relax ksp') c loc k out := by
    unfold Solve at hrun ⊢
    split_ifs at hrun ⊢ with hmx
    · exact hrun
    · obtain ⟨o, l1, l2⟩ := hrun
      obtain ⟨o', s1, s2, s3⟩ := hsim l1
      refine ⟨o', s1, ?_⟩
      cases o with
      | none => rw [s2 rfl]; exact l2
      | some t =>
        obtain ⟨t', rfl, hs⟩ := s3 t rfl
        rw [l2]
        simp only [backwardEuler]
        rw [hs.step, hs.resi, hs.initres]
  refine ⟨hsol, fun k' out' h' => ((C56_terminates backwardEuler _ c loc).2 k out hsol).2 k' out' h', fun m hm => ?_⟩
  obtain ⟨o', s1, -, s3⟩ := hsim hm
  obtain ⟨t', rfl, hs⟩ := s3 m rfl
  exact ⟨t', s1, hs.u, hs.resi, hs.initres, hs.log⟩

omit hz hall hb hg in
/-- Exact linear solvers on distributed vectors exist. -/
theorem exactOn_exists : ∃ ksp', ExactOn gm s dist n ksp' := by
  obtain ⟨ksp, hk⟩ := exact_exists gm.nelem
  have hpos : ∀ p, p < gm.nelem → position gm.nelem dist p = p := position_id_iff.2 hmono
  refine ⟨fun A b => split gm s dist (ksp A fun p => (blockAt gm s dist n b p).getD 0), fun A b hA p hp => ?_⟩
  rw [← hk A (fun p => (blockAt gm s dist n b p).getD 0) hA p hp]
  refine mulRow_congr (x := fun q => (blockAt gm s dist n _ q).getD 0) (fun _ _ => rfl) fun q hq => ?_
  have e2 := blockAt_position hc hn ht h hd (split_represents gm s dist (ksp A fun p => (blockAt gm s dist n b p).getD 0)) hq
  rw [hpos q hq] at e2
  rw [e2, Option.getD_some]

end part

/-! ### The square cut by its diagonals, on two ranks -/

/-- Hypotheses of `C96_run_partial` are met: one iteration at a small CFL number from a gas at rest that is denser in one cell, cells 0, 1 on rank 0 and 2, 3 on rank 1, any
exact linear solver and any relaxation. -/
example (relax : St → St → ℝ) : ∃ s, topological FV.Geo.cross = .ok s ∧ (∃ ksp', ExactOn FV.Geo.cross s (fun i => i / 2) 2 ksp') ∧
    ∀ ksp', ExactOn FV.Geo.cross s (fun i => i / 2) 2 ksp' → ∃ c0, 0 < c0 ∧
    Solve backwardEuler (implicits (air1 (rest 1)) FV.Geo.cross s (fun i => i / 2) 2 (llfJac air) relax ksp') ⟨1 / 2, 1, c0, c0⟩
      (split FV.Geo.cross s (fun i => i / 2) bump) 1 .tolErr := by
  obtain ⟨s, hs, -⟩ := FV.Geo.cross_topological
  have hne : FV.Geo.cross.nelem = 4 := by decide +kernel
  have hb : ((air1 (rest 1)).disc FV.Geo.cross s 0).BcOk := fun k _ => rfl
  have hbj : ((air1 (rest 1)).disc FV.Geo.cross s 0).BcJOk := fun k _ => ⟨_, rfl, rfl⟩
  have hok : ((air1 (rest 1)).disc FV.Geo.cross s 0).G.Ok := ⟨cross_conforming, FV.Geo.cross_nozero, hs⟩
  have hmono : ∀ i j, i < j → j < FV.Geo.cross.nelem → i / 2 ≤ j / 2 := fun i j h _ => Nat.div_le_div_right h.le
  have hd : ∀ g, g < FV.Geo.cross.nelem → g / 2 < 2 := fun g hg => by omega
  have har : ∀ i, i < FV.Geo.cross.nelem → 0 < ((air1 (rest 1)).disc FV.Geo.cross s 0).G.ar i := fun i hi => by rw [cross_area (by omega)]; norm_num
  obtain ⟨c0, hc0, hreg⟩ := regular_small (u := bump) hok (air1_gasOk s) hb (fun i _ => bump_adm i) har (llfJac air)
  obtain ⟨ksp, hk⟩ := exact_exists 4
  rw [← hne] at hk
  refine ⟨s, hs, exactOn_exists cross_conforming rfl (by decide +kernel) hs hd hmono, fun ksp' hk' => ⟨c0, hc0,
    (C96_run_partial cross_conforming rfl (by decide +kernel) hs FV.Geo.cross_nozero (cross_all hs _) hd hmono (air1 (rest 1)) hb (by norm_num [air1, air]) hbj
      (split_represents _ _ _ bump) relax hk hk' (c := ⟨1 / 2, 1, c0, c0⟩) (k := 1) (out := .tolErr) ?_ fun j hj m hm => ?_).1⟩⟩
  · obtain ⟨o, ho⟩ : ∃ o, ((air1 (rest 1)).disc FV.Geo.cross s 0).residual1 bump 0 = some o := ⟨_, by unfold Disc.residual1; rw [if_pos hb]⟩
    have hnorm : ∃ r, (implicit ((air1 (rest 1)).disc FV.Geo.cross s 0) (llfJac air) relax ksp).norm bump = some r := by
      have hnn : 0 ≤ energy ((air1 (rest 1)).disc FV.Geo.cross s 0) o.res := by
        refine Finset.sum_nonneg fun l hl => ?_
        exact mul_nonneg (mul_self_nonneg _) (har l (Finset.mem_range.1 hl)).le
      exact ⟨_, by simp only [implicit]; rw [if_pos hbj]; simp only [single, ho, Option.bind_some, rootOf]; rw [if_pos hnn]⟩
    obtain ⟨r, hr⟩ := hnorm
    unfold Solve
    rw [if_neg (by norm_num)]
    refine ⟨_, .step ?_ (by simp only [body, init, hr]; rfl) (.done ?_), ?_⟩
    · norm_num [Ode.cond, init, fdiv, FDiv.gt]
    · simp [Ode.cond]
    · simp [backwardEuler]
  · obtain rfl : j = 0 := by omega
    cases hm
    refine ⟨fun i _ => bump_adm i, fun i j f _ _ _ _ => C83_llf _ _ _ _, fun o ho => ?_⟩
    have e : nextCfl backwardEuler ⟨1 / 2, 1, c0, c0⟩ (init backwardEuler ⟨1 / 2, 1, c0, c0⟩ bump) = c0 := by
      have hr : ∀ a b c d e : ℝ, expRamp a a b c d e = a := fun a b c d e => by
        unfold expRamp
        dsimp only
        generalize (if c > 1 then b * c ^ d else b * c ^ e) = y
        split_ifs with h1 h2
        · rfl
        · rfl
        · linarith
      exact hr _ _ _ _ _
    rw [e]
    exact hreg c0 hc0 le_rfl o ho

end Par
end FVENS
