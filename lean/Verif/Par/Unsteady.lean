import Verif.Par.Explicit
import Verif.Ode.Rk

/-!
# Explicit unsteady solver on several processes (C89)

`TVDRKSolver` with the first-order discretisation. Between evaluations of the residual the processes do not communicate: the time step is the smallest of the process's own
cells, and ghost blocks of the solution are not updated.
-/

namespace FVENS
namespace Par

open Msh FV Flux Ode
open Finset (range)

/-! ### Model -/

/-- Residual divided by areas, of the cells of one process; ghost rows are not advanced. src/ode/aodesolver.cpp:711-719, 733-742. -/
noncomputable def rkRhs (D : Disc) (u : ℕ → St) : ℕ → St := match D.residual1 u 0 with
  | some o => fun l => if l < D.G.m.nelem then (1 / D.G.ar l) • o.res l else 0
  | none => 0

open Classical in
/-- Smallest time step of the cells of one process, src/ode/aodesolver.cpp:722-728; reading the smallest element of an empty array is undefined and not modelled. -/
noncomputable def rkDt (D : Disc) (u : ℕ → St) : ℝ := match D.residual1 u 0 with
  | some o => if h : (range D.G.m.nelem).Nonempty then (range D.G.m.nelem).inf' h (D.timestep o.uL o.uR) else 0
  | none => 0

/-- Time loop of one process from an array, src/ode/aodesolver.cpp:706-758. -/
def TvRun (D : Disc) (order : ℤ) (cfl T : ℝ) (u : ℕ → St) (k : ℕ) (o : Option (TMem (ℕ → St))) : Prop :=
  Loop (tcond T) (tbody order (rkRhs D) (rkDt D) cfl) ⟨u, 0⟩ k o

/-! ### What a process does -/

section one
variable {D : Disc} {q : ℤ} {cfl T : ℝ}

/-- C89: ghost rows of a process keep their initial values in every run: they are never updated. -/
theorem C89_ghosts_frozen (hq : q = 1 ∨ q = 2 ∨ q = 3) {u : ℕ → St} {k : ℕ} {t : TMem (ℕ → St)} (h : TvRun D q cfl T u k (some t)) {l : ℕ}
    (hl : D.G.m.nelem ≤ l) : t.u l = u l := by
  have key : ∀ {m : TMem (ℕ → St)} {k : ℕ} {o : Option (TMem (ℕ → St))}, Loop (tcond T) (tbody q (rkRhs D) (rkDt D) cfl) m k o →
      ∀ t, o = some t → t.u l = m.u l := by
    intro m k o h
    induction h with
    | done _ => intro t ht; cases ht; rfl
    | @step m m1 k o h1 h2 h3 ih =>
      intro t ht
      rw [ih t ht]
      simp only [tbody, C58_step hq, Option.map_some, Option.some.injEq] at h2
      rw [← h2]
      have : rkRhs D m.u l = 0 := by
        unfold rkRhs
        cases D.residual1 m.u 0 with
        | none => rfl
        | some o => simp only; rw [if_neg (not_lt.2 hl)]
      show m.u l - (_ • rkRhs D m.u) l = m.u l
      rw [Pi.smul_apply, this, smul_zero, sub_zero]
    | throws _ _ => intro t ht; cases ht
  exact key h t rfl

end one

section part
variable {gm : Mesh} {s : FState} {dist : ℕ → ℕ}
variable (hc : Conforming gm) (hn : gm.nconnface = 0) (ht : gm.nbtag ≤ 4) (h : topological gm = .ok s) (hz : NoZeroFace gm)
  (hall : AllRegistered gm s dist) {n : ℕ} (hd : ∀ g, g < gm.nelem → dist g < n)
  (hmono : ∀ i j, i < j → j < gm.nelem → dist i ≤ dist j) (P : Settings) (hb : (P.disc gm s 0).BcOk) (hg : 4 ≤ 3 * P.gas.g)
include hc hn ht h hz hall hd hmono hb hg

/-- Right-hand side and time steps of a rank whose array holds, in every row, the value of the cell the row stands for. -/
theorem rank_rhs {w : ℕ → St} (hw : ∀ i, i < gm.nelem → Adm P.gas (w i)) {r : ℕ} {S : Sub} {s' : FState} (hS : restrict gm s dist r = .ok S)
    (hs' : topological S.mesh = .ok s') {u : ℕ → St} (hu : ∀ i, i < S.mesh.nelem + S.mesh.nconnface → u i = w (rowCell S i)) :
    ∃ o o', (P.disc gm s 0).residual1 w 0 = some o ∧ (P.rank gm s dist n r S s').residual1 u 0 = some o' ∧
      (∀ l g : ℕ, S.cells[l]? = some g → rkRhs (P.rank gm s dist n r S s') u l = rkRhs (P.disc gm s 0) w g) ∧
      ∀ l g : ℕ, S.cells[l]? = some g → (P.rank gm s dist n r S s').timestep o'.uL o'.uR l = (P.disc gm s 0).timestep o.uL o.uR g := by
  have hsw : ∀ i j, i < gm.nelem → j < gm.nelem → (P.disc gm s 0).SwapOk (w i) (w j) := fun i j hi hj =>
    Disc.swapOk_of_adm _ hg (hw i hi) (hw j hj)
  obtain ⟨S', hS', hsub, hcon, -⟩ := restrict_spec hc hn ht h dist r
  rw [hS] at hS'; cases hS'
  have hpos : ∀ ic, ic < S.mesh.nconnface → position gm.nelem dist (S.mesh.connface ic 3) = S.mesh.connface ic 3 := fun ic hic => by
    obtain ⟨g, j, k, r1, r2, -, -, r5, -⟩ := hcon.row ic hic
    rw [r5]; exact position_id_iff.2 hmono j r2.2.1.1
  obtain ⟨hok, τ, hcp⟩ := rank_copy hc hn ht h hz hall hd P hS hpos hs'
  have hD : (P.disc gm s 0).G.Ok := ⟨hc, hz, h⟩
  obtain ⟨o, o', h1, h2, h3⟩ := Disc.C75_first_order hD hok hcp hb (u := w) (u' := u) hu hsw 0 0
  have hll : ∀ {l g : ℕ}, S.cells[l]? = some g → l < S.mesh.nelem ∧ g < gm.nelem := fun hlg =>
    ⟨by rw [hsub.nelem]; exact (List.getElem?_eq_some_iff.1 hlg).1, ((hsub.cells _).1 (List.mem_of_getElem? hlg)).1⟩
  refine ⟨o, o', h1, h2, fun l g hlg => ?_, fun l g hlg => ?_⟩
  · obtain ⟨e1, e2⟩ := hll hlg
    have e3 := h3 l e1
    rw [rowCell_own hsub.nelem hlg] at e3
    simp only [Pi.zero_apply, sub_zero] at e3
    have e4 := hcp.geo.ar l e1
    rw [rowCell_own hsub.nelem hlg] at e4
    simp only [rkRhs, h1, h2]
    rw [if_pos (show l < (P.rank gm s dist n r S s').G.m.nelem from e1), if_pos (show g < (P.disc gm s 0).G.m.nelem from e2), e3, e4]
  · obtain ⟨e1, e2⟩ := hll hlg
    have := Disc.C75_first_order_time_steps hD hok hcp (fun i hi => hu i (by have : i < S.mesh.nelem := hi; omega)) h1 h2 e1
    rw [rowCell_own hsub.nelem hlg] at this
    exact this

omit hz hall hd hmono hb hg in
theorem cells_lt {r : ℕ} {S : Sub} (hS : restrict gm s dist r = .ok S) {l g : ℕ} (hlg : S.cells[l]? = some g) : l < S.mesh.nelem ∧ g < gm.nelem ∧ dist g = r := by
  obtain ⟨S', hS', hsub, -⟩ := restrict_spec hc hn ht h dist r
  rw [hS] at hS'; cases hS'
  exact ⟨by rw [hsub.nelem]; exact (List.getElem?_eq_some_iff.1 hlg).1, (hsub.cells _).1 (List.mem_of_getElem? hlg)⟩

/-- Rank `r`'s time step is at least that of the single process, and some rank has the latter. -/
theorem C89_time_step {w : ℕ → St} (hw : ∀ i, i < gm.nelem → Adm P.gas (w i)) {loc : ℕ → ℕ → St} (hl : Represents gm s dist loc w) (hne : 0 < gm.nelem)
    {S : ℕ → Sub} {s' : ℕ → FState} (hS : ∀ r, restrict gm s dist r = .ok (S r)) (hs' : ∀ r, topological (S r).mesh = .ok (s' r)) :
    (∀ r, 0 < (S r).mesh.nelem → rkDt (P.disc gm s 0) w ≤ rkDt (P.rank gm s dist n r (S r) (s' r)) (rankArray gm s dist n loc r (S r))) ∧
    ∃ r, r < n ∧ 0 < (S r).mesh.nelem ∧ rkDt (P.rank gm s dist n r (S r) (s' r)) (rankArray gm s dist n loc r (S r)) = rkDt (P.disc gm s 0) w := by
  have hspec : ∀ r, IsSub gm dist r (S r) ∧ ConnOk gm s dist (S r) := fun r => by
    obtain ⟨S', hS', hsub, hcon, -⟩ := restrict_spec hc hn ht h dist r
    rw [hS r] at hS'; cases hS'
    exact ⟨hsub, hcon⟩
  have hu : ∀ r i, i < (S r).mesh.nelem + (S r).mesh.nconnface → rankArray gm s dist n loc r (S r) i = w (rowCell (S r) i) := fun r i hi =>
    rankArray_row hc hn ht h hd hl (hS r) (fun ic hic => by
      obtain ⟨g, j, k, r1, r2, -, -, r5, -⟩ := (hspec r).2.row ic hic
      rw [r5]; exact position_id_iff.2 hmono j r2.2.1.1) hi
  have key := fun r => rank_rhs hc hn ht h hz hall hd hmono P hb hg hw (hS r) (hs' r) (hu r)
  obtain ⟨o, -, ho, -⟩ := key 0
  have hcell : ∀ r, ∃ o', (P.rank gm s dist n r (S r) (s' r)).residual1 (rankArray gm s dist n loc r (S r)) 0 = some o' ∧
      ∀ l g : ℕ, (S r).cells[l]? = some g → (P.rank gm s dist n r (S r) (s' r)).timestep o'.uL o'.uR l = (P.disc gm s 0).timestep o.uL o.uR g := fun r => by
    obtain ⟨o2, o', h1, h2, -, h4⟩ := key r
    rw [ho, Option.some.injEq] at h1
    subst h1
    exact ⟨o', h2, h4⟩
  choose o' h2 h4 using hcell
  have hsome : ∀ r l, l < (S r).mesh.nelem → ∃ g : ℕ, (S r).cells[l]? = some g := fun r l hll => by
    obtain ⟨g, hg, -⟩ := (hspec r).1.cell hll
    exact ⟨g, hg⟩
  have hD1 : rkDt (P.disc gm s 0) w = (range gm.nelem).inf' ⟨0, Finset.mem_range.2 hne⟩ ((P.disc gm s 0).timestep o.uL o.uR) := by
    simp only [rkDt, ho]
    exact dif_pos (show (range gm.nelem).Nonempty from ⟨0, Finset.mem_range.2 hne⟩)
  have hD2 : ∀ r (hr : 0 < (S r).mesh.nelem), rkDt (P.rank gm s dist n r (S r) (s' r)) (rankArray gm s dist n loc r (S r)) =
      (range (S r).mesh.nelem).inf' ⟨0, Finset.mem_range.2 hr⟩ ((P.rank gm s dist n r (S r) (s' r)).timestep (o' r).uL (o' r).uR) := fun r hr => by
    simp only [rkDt, h2 r]
    exact dif_pos (show (range (S r).mesh.nelem).Nonempty from ⟨0, Finset.mem_range.2 hr⟩)
  have hle : ∀ r, 0 < (S r).mesh.nelem → rkDt (P.disc gm s 0) w ≤ rkDt (P.rank gm s dist n r (S r) (s' r)) (rankArray gm s dist n loc r (S r)) := fun r hr => by
    rw [hD1, hD2 r hr]
    refine Finset.le_inf' _ _ fun l hll => ?_
    obtain ⟨g, hgl⟩ := hsome r l (Finset.mem_range.1 hll)
    rw [h4 r l g hgl]
    exact Finset.inf'_le _ (Finset.mem_range.2 (cells_lt hc hn ht h (hS r) hgl).2.1)
  refine ⟨hle, ?_⟩
  obtain ⟨g, hgm, hgmin⟩ := Finset.exists_mem_eq_inf' (s := range gm.nelem) ⟨0, Finset.mem_range.2 hne⟩ ((P.disc gm s 0).timestep o.uL o.uR)
  have hgm := Finset.mem_range.1 hgm
  obtain ⟨l, hlt, he⟩ := List.mem_iff_getElem.1 (((hspec (dist g)).1.cells g).2 ⟨hgm, rfl⟩)
  have hlg : (S (dist g)).cells[l]? = some g := by rw [List.getElem?_eq_getElem hlt, he]
  have hlr : l < (S (dist g)).mesh.nelem := by rw [(hspec _).1.nelem]; exact hlt
  refine ⟨dist g, hd g hgm, by omega, le_antisymm ?_ (hle _ (by omega))⟩
  rw [hD1, hgmin, hD2 _ (by omega), ← h4 _ l g hlg]
  exact Finset.inf'_le _ (Finset.mem_range.2 hlr)

/-- C89, exactly when the first step is right: the states of the ranks after their first steps are those of the single process after its first step if and only if every rank has the
single process's time step or no residual in any of its cells. -/
theorem C89_first_step_iff {q : ℤ} (hq : q = 1 ∨ q = 2 ∨ q = 3) {cfl : ℝ} (hcfl : cfl ≠ 0) {w : ℕ → St} (hw : ∀ i, i < gm.nelem → Adm P.gas (w i))
    {loc : ℕ → ℕ → St} (hl : Represents gm s dist loc w) {S : ℕ → Sub} {s' : ℕ → FState} (hS : ∀ r, restrict gm s dist r = .ok (S r))
    (hs' : ∀ r, topological (S r).mesh = .ok (s' r)) (t0 : ℝ) :
    (∃ (t : TMem (ℕ → St)) (t' : ℕ → TMem (ℕ → St)), tbody q (rkRhs (P.disc gm s 0)) (rkDt (P.disc gm s 0)) cfl ⟨w, t0⟩ = some t ∧
      (∀ r, r < n → tbody q (rkRhs (P.rank gm s dist n r (S r) (s' r))) (rkDt (P.rank gm s dist n r (S r) (s' r))) cfl ⟨rankArray gm s dist n loc r (S r), t0⟩ = some (t' r)) ∧
      ∀ r, r < n → ∀ l g : ℕ, (S r).cells[l]? = some g → (t' r).u l = t.u g) ↔
    ∀ r, r < n → rkDt (P.rank gm s dist n r (S r) (s' r)) (rankArray gm s dist n loc r (S r)) = rkDt (P.disc gm s 0) w ∨
      ∀ g, g < gm.nelem → dist g = r → rkRhs (P.disc gm s 0) w g = 0 := by
  have hspec : ∀ r, IsSub gm dist r (S r) ∧ ConnOk gm s dist (S r) := fun r => by
    obtain ⟨S', hS', hsub, hcon, -⟩ := restrict_spec hc hn ht h dist r
    rw [hS r] at hS'; cases hS'
    exact ⟨hsub, hcon⟩
  have hu : ∀ r i, i < (S r).mesh.nelem + (S r).mesh.nconnface → rankArray gm s dist n loc r (S r) i = w (rowCell (S r) i) := fun r i hi =>
    rankArray_row hc hn ht h hd hl (hS r) (fun ic hic => by
      obtain ⟨g, j, k, r1, r2, -, -, r5, -⟩ := (hspec r).2.row ic hic
      rw [r5]; exact position_id_iff.2 hmono j r2.2.1.1) hi
  have hk : kappa q ≠ 0 := by
    rcases hq with rfl | rfl | rfl <;> norm_num [kappa]
  have hq0 : 0 < q := by omega
  have hstep : ∀ (E : Disc) (u : ℕ → St), tbody q (rkRhs E) (rkDt E) cfl ⟨u, t0⟩ =
      some ⟨u - (kappa q * (rkDt E u * cfl)) • rkRhs E u, t0 + rkDt E u * cfl⟩ := fun E u => by
    simp only [tbody, C58_step hq, Option.map_some, if_pos hq0]
  have hval : ∀ r l g : ℕ, (S r).cells[l]? = some g →
      ((rankArray gm s dist n loc r (S r) - (kappa q * (rkDt (P.rank gm s dist n r (S r) (s' r)) (rankArray gm s dist n loc r (S r)) * cfl)) •
        rkRhs (P.rank gm s dist n r (S r) (s' r)) (rankArray gm s dist n loc r (S r))) l =
        (w - (kappa q * (rkDt (P.disc gm s 0) w * cfl)) • rkRhs (P.disc gm s 0) w) g ↔
      rkDt (P.rank gm s dist n r (S r) (s' r)) (rankArray gm s dist n loc r (S r)) = rkDt (P.disc gm s 0) w ∨ rkRhs (P.disc gm s 0) w g = 0) := by
    intro r l g hlg
    obtain ⟨o, o', -, -, h3, -⟩ := rank_rhs hc hn ht h hz hall hd hmono P hb hg hw (hS r) (hs' r) (hu r)
    have e1 := hu r l (by have := (cells_lt hc hn ht h (hS r) hlg).1; omega)
    rw [rowCell_own (hspec r).1.nelem hlg] at e1
    simp only [Pi.sub_apply, Pi.smul_apply, h3 l g hlg, e1]
    rw [sub_right_inj, ← sub_eq_zero, ← sub_smul, smul_eq_zero]
    refine or_congr_left ?_
    rw [← mul_sub, ← sub_mul, mul_eq_zero, mul_eq_zero, sub_eq_zero]
    simp [hk, hcfl]
  constructor
  · rintro ⟨t, t', e1, e2, e3⟩ r hr
    rw [hstep, Option.some.injEq] at e1
    by_cases hdt : rkDt (P.rank gm s dist n r (S r) (s' r)) (rankArray gm s dist n loc r (S r)) = rkDt (P.disc gm s 0) w
    · exact Or.inl hdt
    · refine Or.inr fun g hgn hgr => ?_
      obtain ⟨l, hlt, he⟩ := List.mem_iff_getElem.1 (((hspec r).1.cells g).2 ⟨hgn, hgr⟩)
      have hlg : (S r).cells[l]? = some g := by rw [List.getElem?_eq_getElem hlt, he]
      have e4 := e3 r hr l g hlg
      have e5 := e2 r hr
      rw [hstep, Option.some.injEq] at e5
      rw [← e5, ← e1] at e4
      exact ((hval r l g hlg).1 e4).resolve_left hdt
  · intro hall2
    refine ⟨_, fun r => _, hstep _ _, fun r _ => hstep _ _, fun r hr l g hlg => (hval r l g hlg).2 ?_⟩
    rcases hall2 r hr with e | e
    · exact Or.inl e
    · obtain ⟨-, c1, c2⟩ := cells_lt hc hn ht h (hS r) hlg
      exact Or.inr (e g c1 c2)

omit hall hd hmono in
/-- C89 (partial): if one process holds all cells, every run of it is the run of the single process: same number of steps, same physical time, same states. Missing for the full claim:
several processes, for which it fails (`C89_refuted`, `C89_first_step_iff`, `C89_ghosts_frozen`). -/
theorem C89_one_process_partial (h0 : ∀ g, g < gm.nelem → dist g = 0) (hn0 : 0 < n) (hne : 0 < gm.nelem) {S : Sub} {s' : FState} (hS : restrict gm s dist 0 = .ok S)
    (hs' : topological S.mesh = .ok s') {q : ℤ} (hq : q = 1 ∨ q = 2 ∨ q = 3) {cfl T : ℝ} {w : ℕ → St} {loc : ℕ → ℕ → St} (hl : Represents gm s dist loc w) {k : ℕ}
    {t : TMem (ℕ → St)} (hrun : TvRun (P.disc gm s 0) q cfl T w k (some t))
    (hadm : ∀ j, j < k → ∀ m, (fun x : Option (TMem (ℕ → St)) => x.bind (tbody q (rkRhs (P.disc gm s 0)) (rkDt (P.disc gm s 0)) cfl))^[j] (some ⟨w, 0⟩) = some m →
      ∀ i, i < gm.nelem → Adm P.gas (m.u i)) :
    ∃ t', TvRun (P.rank gm s dist n 0 S s') q cfl T (rankArray gm s dist n loc 0 S) k (some t') ∧ t'.time = t.time ∧
      ∀ l g : ℕ, S.cells[l]? = some g → t'.u l = t.u g := by
  have hd : ∀ g, g < gm.nelem → dist g < n := fun g hg => by rw [h0 g hg]; exact hn0
  have hmono : ∀ i j, i < j → j < gm.nelem → dist i ≤ dist j := fun i j hij hj => by rw [h0 i (by omega), h0 j hj]
  have hall : AllRegistered gm s dist := (C38_all_iff hc hn ht h dist).2 fun g f hf => by
    obtain ⟨j, k, hgl, hne⟩ := hf
    exact absurd (by rw [h0 j hgl.2.1.1, h0 g hgl.1.1]) hne
  obtain ⟨S', hS', hsub, hcon, -⟩ := restrict_spec hc hn ht h dist 0
  rw [hS] at hS'; cases hS'
  have hnc : S.mesh.nconnface = 0 := by
    by_contra hne
    obtain ⟨g, j, k, r1, r2, r3, -⟩ := hcon.row 0 (by omega)
    exact r3 (by rw [h0 j r2.2.1.1, h0 g r2.1.1])
  have hqs : 0 < q := by omega
  have hlt : ∀ {l g : ℕ}, S.cells[l]? = some g → l < S.mesh.nelem ∧ g < gm.nelem := fun hlg => by
    obtain ⟨a, b, -⟩ := cells_lt hc hn ht h hS hlg
    exact ⟨a, b⟩
  have hsome : ∀ l, l < S.mesh.nelem → ∃ g : ℕ, S.cells[l]? = some g := fun l hll => by
    obtain ⟨g, hg, -⟩ := hsub.cell hll
    exact ⟨g, hg⟩
  have hback : ∀ g, g < gm.nelem → ∃ l : ℕ, S.cells[l]? = some g := fun g hgn =>
    List.mem_iff_getElem?.1 ((hsub.cells g).2 ⟨hgn, h0 g hgn⟩)
  -- one step
  have hone : ∀ (u v : ℕ → St), (∀ i, i < gm.nelem → Adm P.gas (u i)) → (∀ l g : ℕ, S.cells[l]? = some g → v l = u g) →
      rkDt (P.rank gm s dist n 0 S s') v = rkDt (P.disc gm s 0) u ∧
      ∀ l g : ℕ, S.cells[l]? = some g → rkRhs (P.rank gm s dist n 0 S s') v l = rkRhs (P.disc gm s 0) u g := by
    intro u v hu hv
    have hrow : ∀ i, i < S.mesh.nelem + S.mesh.nconnface → v i = u (rowCell S i) := fun i hi => by
      obtain ⟨g, hgi⟩ := hsome i (by omega)
      rw [rowCell_own hsub.nelem hgi, hv i g hgi]
    obtain ⟨o, o', h1, h2, h3, h4⟩ := rank_rhs hc hn ht h hz hall hd hmono P hb hg hu hS hs' hrow
    refine ⟨?_, h3⟩
    have hSne : 0 < S.mesh.nelem := by
      obtain ⟨l, hl⟩ := hback 0 hne
      have := (hlt hl).1; omega
    have e1 : rkDt (P.disc gm s 0) u = (range gm.nelem).inf' ⟨0, Finset.mem_range.2 hne⟩ ((P.disc gm s 0).timestep o.uL o.uR) := by
      simp only [rkDt, h1]
      exact dif_pos (show (range gm.nelem).Nonempty from ⟨0, Finset.mem_range.2 hne⟩)
    have e2 : rkDt (P.rank gm s dist n 0 S s') v =
        (range S.mesh.nelem).inf' ⟨0, Finset.mem_range.2 hSne⟩ ((P.rank gm s dist n 0 S s').timestep o'.uL o'.uR) := by
      simp only [rkDt, h2]
      exact dif_pos (show (range S.mesh.nelem).Nonempty from ⟨0, Finset.mem_range.2 hSne⟩)
    rw [e1, e2]
    refine le_antisymm (Finset.le_inf' _ _ fun g hgm => ?_) (Finset.le_inf' _ _ fun l hlm => ?_)
    · obtain ⟨l, hlg⟩ := hback g (Finset.mem_range.1 hgm)
      rw [← h4 l g hlg]
      exact Finset.inf'_le _ (Finset.mem_range.2 (hlt hlg).1)
    · obtain ⟨g, hlg⟩ := hsome l (Finset.mem_range.1 hlm)
      rw [h4 l g hlg]
      exact Finset.inf'_le _ (Finset.mem_range.2 (hlt hlg).2)
  have key : ∀ {m : TMem (ℕ → St)} {k : ℕ} {o : Option (TMem (ℕ → St))}, Loop (tcond T) (tbody q (rkRhs (P.disc gm s 0)) (rkDt (P.disc gm s 0)) cfl) m k o →
      ∀ t, o = some t → ∀ m' : TMem (ℕ → St), m'.time = m.time → (∀ l g : ℕ, S.cells[l]? = some g → m'.u l = m.u g) →
      (∀ j, j < k → ∀ x, (fun x : Option (TMem (ℕ → St)) => x.bind (tbody q (rkRhs (P.disc gm s 0)) (rkDt (P.disc gm s 0)) cfl))^[j] (some m) = some x →
        ∀ i, i < gm.nelem → Adm P.gas (x.u i)) →
      ∃ t', Loop (tcond T) (tbody q (rkRhs (P.rank gm s dist n 0 S s')) (rkDt (P.rank gm s dist n 0 S s')) cfl) m' k (some t') ∧ t'.time = t.time ∧
        ∀ l g : ℕ, S.cells[l]? = some g → t'.u l = t.u g := by
    intro m k o hloop
    induction hloop with
    | done h1 =>
      intro t ht m' e1 e2 _
      cases ht
      exact ⟨m', .done (by unfold tcond; rw [e1]; exact h1), e1, e2⟩
    | @step m m1 k o h1 h2 h3 ih =>
      intro t ht m' e1 e2 had
      obtain ⟨d1, d2⟩ := hone m.u m'.u (had 0 (by omega) m rfl) e2
      have had' : ∀ j, j < k → ∀ x, (fun x : Option (TMem (ℕ → St)) => x.bind (tbody q (rkRhs (P.disc gm s 0)) (rkDt (P.disc gm s 0)) cfl))^[j] (some m1) = some x →
          ∀ i, i < gm.nelem → Adm P.gas (x.u i) := fun j hj x hx =>
        had (j + 1) (by omega) x (by rw [Function.iterate_succ_apply, Option.bind_some, h2]; exact hx)
      have hb' : tbody q (rkRhs (P.rank gm s dist n 0 S s')) (rkDt (P.rank gm s dist n 0 S s')) cfl m' =
          some ⟨m'.u - (kappa q * (rkDt (P.rank gm s dist n 0 S s') m'.u * cfl)) • rkRhs (P.rank gm s dist n 0 S s') m'.u,
            m'.time + rkDt (P.rank gm s dist n 0 S s') m'.u * cfl⟩ := by
        simp only [tbody, C58_step hq, Option.map_some, if_pos hqs]
      simp only [tbody, C58_step hq, Option.map_some, if_pos hqs, Option.some.injEq] at h2
      obtain ⟨t', l1, l2, l3⟩ := ih t ht ⟨m'.u - (kappa q * (rkDt (P.rank gm s dist n 0 S s') m'.u * cfl)) • rkRhs (P.rank gm s dist n 0 S s') m'.u,
            m'.time + rkDt (P.rank gm s dist n 0 S s') m'.u * cfl⟩ (by rw [← h2]; simp only; rw [e1, d1]) (fun l g hlg => by
        rw [← h2]
        simp only [Pi.sub_apply, Pi.smul_apply]
        rw [e2 l g hlg, d1, d2 l g hlg]) had'
      exact ⟨t', .step (by unfold tcond; rw [e1]; exact h1) hb' l1, l2, l3⟩
    | throws _ _ => intro t ht; cases ht
  exact key hrun t rfl ⟨_, 0⟩ rfl (fun l g hlg => by
    show rankArray gm s dist n loc 0 S l = w g
    rw [rankArray, if_pos (hlt hlg).1]
    exact hl 0 S hS l g hlg) hadm

end part

/-! ### The square cut by its diagonals, on two ranks -/

/-- Gas at rest, denser in cells 2 and 3. -/
noncomputable def halves (i : ℕ) : St := if i < 2 then rest 1 else rest 2

theorem halves_adm (i : ℕ) : Adm air (halves i) := by
  unfold halves
  split_ifs
  · exact rest_adm (by norm_num)
  · exact rest_adm (by norm_num)

/-- Time step of a cell at rest: area over sound speed times perimeter. -/
theorem halves_timestep {s : FState} (hs : topological FV.Geo.cross = .ok s) {c : St} {o : Disc.Out}
    (ho : ((air1 c).disc FV.Geo.cross s 0).residual1 halves 0 = some o) {i : ℕ} (hi : i < 4) :
    ((air1 c).disc FV.Geo.cross s 0).timestep o.uL o.uR i = 1 / 4 / (air.soundSpeedC (halves i) * (1 + Real.sqrt 2)) := by
  have hok : ((air1 c).disc FV.Geo.cross s 0).G.Ok := ⟨cross_conforming, FV.Geo.cross_nozero, hs⟩
  have hne : FV.Geo.cross.nelem = 4 := by decide +kernel
  have hnn : FV.Geo.cross.nnode i = 3 := rfl
  obtain ⟨x, hx⟩ := Geo.exists_sides hok (i := i) (by show i < FV.Geo.cross.nelem; omega)
  unfold Disc.timestep
  rw [cross_area hi, Disc.integ_cell hok (by show i < FV.Geo.cross.nelem; omega) hx (fo := fun _ => halves i) (fun f _ k hk hs => ?_)]
  · congr 1
    rw [show ((air1 c).disc FV.Geo.cross s 0).G.m.nnode i = 3 from rfl]
    have hspec : ∀ a b : Fin 2 → ℝ, ((air1 c).disc FV.Geo.cross s 0).sideSpec (halves i) a b (((air1 c).disc FV.Geo.cross s 0).G.ar i) =
        air.soundSpeedC (halves i) * fLen a b := fun a b => by
      have hm : dot (mom (halves i)) (fNrm a b) = 0 := by
        unfold halves; split_ifs <;> simp [rest, dot, mom]
      simp only [Disc.sideSpec, hm, zero_div, abs_zero, zero_add]
      simp [Settings.disc, air1]
    simp only [hspec, Finset.sum_range_succ, Finset.sum_range_zero, zero_add]
    rw [← mul_add, ← mul_add]
    congr 1
    have h2 : Real.sqrt (1 / 2) = Real.sqrt 2 / 2 := by
      rw [show (1 / 2 : ℝ) = 2 / 2 ^ 2 by norm_num, Real.sqrt_div (by norm_num), Real.sqrt_sq (by norm_num)]
    obtain rfl | rfl | rfl | rfl : i = 0 ∨ i = 1 ∨ i = 2 ∨ i = 3 := by omega
    all_goals
      norm_num [nodeA, nodeB, fLen, Settings.disc, FV.Geo.cross, triMesh]
      try rw [show (Real.sqrt 2)⁻¹ = Real.sqrt 2 / 2 by rw [← Real.sqrt_inv, ← one_div, h2]]
      try ring
  · unfold Disc.residual1 at ho
    split_ifs at ho
    cases ho
    refine ⟨fun hl => by simp only; rw [hl], fun hl => ?_⟩
    rcases hs.left_or with ⟨hl', -⟩ | ⟨-, hr, hin, -⟩
    · exact absurd hl' hl
    · simp only; rw [if_neg (not_lt.2 hin.1), hr]

theorem sound_rest {a b : ℝ} (ha : 0 < a) (hab : a < b) : air.soundSpeedC (rest b) < air.soundSpeedC (rest a) := by
  have hp : ∀ x : ℝ, air.pressure (rest x) = 2 / 5 := fun x => by
    simp [Gas.pressure, Gas.pressureOfInternal, rest, air, mom, dot]; norm_num
  unfold Gas.soundSpeedC Gas.soundSpeed
  rw [hp, hp]
  refine Real.sqrt_lt_sqrt ?_ ?_
  · have : (0 : ℝ) < b := ha.trans hab
    simp only [rest, Matrix.cons_val_zero, air]
    positivity
  · simp only [rest, Matrix.cons_val_zero, air]
    gcongr

/-- Mass leaves cell 2 into cell 1. -/
theorem halves_residual {s : FState} (hs : topological FV.Geo.cross = .ok s)
    (hf : s.faces = [⟨0, 4, 0, 1⟩, ⟨1, 5, 1, 2⟩, ⟨2, 6, 2, 3⟩, ⟨3, 7, 3, 0⟩, ⟨0, 1, 1, 4⟩, ⟨0, 3, 4, 0⟩, ⟨1, 2, 2, 4⟩, ⟨2, 3, 3, 4⟩]) :
    ∃ o, ((air1 (rest 2)).disc FV.Geo.cross s 0).residual1 halves 0 = some o ∧ o.res 2 0 < 0 := by
  have hne : FV.Geo.cross.nelem = 4 := by decide +kernel
  have hok : ((air1 (rest 2)).disc FV.Geo.cross s 0).G.Ok := ⟨cross_conforming, FV.Geo.cross_nozero, hs⟩
  have hb : ((air1 (rest 2)).disc FV.Geo.cross s 0).BcOk := fun k _ => rfl
  refine ⟨_, by unfold Disc.residual1; rw [if_pos hb], ?_⟩
  have hl6 : 0 < ((air1 (rest 2)).disc FV.Geo.cross s 0).G.len 6 := Disc.len_pos hok (by
    show 6 < s.faces.length
    rw [hf]; decide)
  have hm : ∀ (a b : ℝ) (n : V2), llf air (rest a) (rest b) n 0 =
      - (1 / 2) * llfEig (Gas.varsVn (rest a) n) (cSide air (rest a)) (Gas.varsVn (rest b) n) (cSide air (rest b)) * (b - a) := fun a b n => by
    simp [llf, Gas.eulerFlux, Gas.dirFlux, rest, dot, mom]; ring
  have hsum : ∀ Φ : ℕ → St, assemble FV.Geo.cross.nelem s.faces Φ 0 2 0 = - Φ 2 0 + Φ 6 0 - Φ 7 0 := fun Φ => by
    rw [assemble_eq, hf, hne]
    simp [Finset.sum_range_succ, contrib, faceAt]
    ring
  simp only [Disc.fluxes]
  rw [show ((air1 (rest 2)).disc FV.Geo.cross s 0).G.m.nelem = FV.Geo.cross.nelem from rfl,
    show ((air1 (rest 2)).disc FV.Geo.cross s 0).G.s.faces = s.faces from rfl, hsum]
  have hE : 0 < llfEig (Gas.varsVn (rest 1) (((air1 (rest 2)).disc FV.Geo.cross s 0).G.nrm 6)) (cSide air (rest 1))
      (Gas.varsVn (rest 2) (((air1 (rest 2)).disc FV.Geo.cross s 0).G.nrm 6)) (cSide air (rest 2)) := by
    have hv : ∀ (a : ℝ) (n : V2), Gas.varsVn (rest a) n = 0 := fun a n => by simp [Gas.varsVn, Gas.vel, rest, dot]
    have hc : ∀ a : ℝ, 0 < a → 0 < cSide air (rest a) := fun a ha => by
      unfold cSide Gas.soundSpeed
      refine Real.sqrt_pos.2 ?_
      rw [varsP_eq (rest_adm ha).rho']
      have h1 := (rest_adm ha).p
      have h2 : 0 < rest a 0 := ha
      have h3 : 0 < air.g := by norm_num [air]
      positivity
    simp only [llfEig, hv, abs_zero, zero_add]
    split_ifs
    · exact hc 1 one_pos
    · exact hc 2 two_pos
  have f2 : faceAt s.faces 2 = ⟨2, 6, 2, 3⟩ := by rw [hf]; rfl
  have f6 : faceAt s.faces 6 = ⟨1, 2, 2, 4⟩ := by rw [hf]; rfl
  have f7 : faceAt s.faces 7 = ⟨2, 3, 3, 4⟩ := by rw [hf]; rfl
  have w1 : halves 1 = rest 1 := if_pos (by omega)
  have w2 : halves 2 = rest 2 := if_neg (by omega)
  have w3 : halves 3 = rest 2 := if_neg (by omega)
  have b2 : (2 : ℕ) < FV.Geo.cross.nbface := by decide +kernel
  have b6 : ¬ (6 : ℕ) < FV.Geo.cross.nbface := by decide +kernel
  have b7 : ¬ (7 : ℕ) < FV.Geo.cross.nbface := by decide +kernel
  generalize hD : ((air1 (rest 2)).disc FV.Geo.cross s 0) = D at hE hl6 ⊢
  have d0 : D.viscous = false := by rw [← hD]; rfl
  have d1 : D.scheme = .llf := by rw [← hD]; rfl
  have d2 : D.gas = air := by rw [← hD]; rfl
  have d3 : ∀ k, D.bc (D.tag k) = some (.farfield (rest 2)) := fun k => by rw [← hD]; rfl
  have d4 : ∀ k, D.G.face k = faceAt s.faces k := fun k => by rw [← hD]; rfl
  have d5 : D.G.m.nbface = FV.Geo.cross.nbface := by rw [← hD]; rfl
  simp only [Disc.faceFlux, Disc.bstate, BC.Obj.ghost, BC.farfield, d0, d1, d2, d3, d4, d5, f2, f6, f7, w1, w2, w3, if_pos b2, if_neg b6, if_neg b7,
    Scheme.flux, Bool.false_eq_true, if_false, add_zero, hm]
  have := mul_pos hE hl6
  linarith

/-- C89 fails. A square of four triangles, two on each of two ranks, interface faces registered, cell numbers in the order of the ranks; gas at rest, denser in the cells of rank 1. For every
order and every non-zero CFL number the first step takes the two ranks to different physical times, and the resulting state is not that of the single process. -/
theorem C89_refuted : ∃ s, Conforming FV.Geo.cross ∧ topological FV.Geo.cross = .ok s ∧ AllRegistered FV.Geo.cross s (fun i => i / 2) ∧
    ∃ (P : Settings) (w : ℕ → St) (loc : ℕ → ℕ → St) (S : ℕ → Sub) (s' : ℕ → FState), (∀ i, Adm P.gas (w i)) ∧ Represents FV.Geo.cross s (fun i => i / 2) loc w ∧
      (P.disc FV.Geo.cross s 0).BcOk ∧ (∀ r, restrict FV.Geo.cross s (fun i => i / 2) r = .ok (S r)) ∧ (∀ r, topological (S r).mesh = .ok (s' r)) ∧
      ∀ q : ℤ, q = 1 ∨ q = 2 ∨ q = 3 → ∀ cfl : ℝ, cfl ≠ 0 → ∃ (t : TMem (ℕ → St)) (t' : ℕ → TMem (ℕ → St)),
        tbody q (rkRhs (P.disc FV.Geo.cross s 0)) (rkDt (P.disc FV.Geo.cross s 0)) cfl ⟨w, 0⟩ = some t ∧
        (∀ r, tbody q (rkRhs (P.rank FV.Geo.cross s (fun i => i / 2) 2 r (S r) (s' r))) (rkDt (P.rank FV.Geo.cross s (fun i => i / 2) 2 r (S r) (s' r))) cfl
          ⟨rankArray FV.Geo.cross s (fun i => i / 2) 2 loc r (S r), 0⟩ = some (t' r)) ∧
        (t' 0).time ≠ (t' 1).time ∧ ∃ r, r < 2 ∧ ∃ l g : ℕ, (S r).cells[l]? = some g ∧ (t' r).u l ≠ t.u g := by
  obtain ⟨s, hs, hf⟩ := FV.Geo.cross_topological
  have hne : FV.Geo.cross.nelem = 4 := by decide +kernel
  have hSx : ∀ r, ∃ S s', restrict FV.Geo.cross s (fun i => i / 2) r = .ok S ∧ topological S.mesh = .ok s' := fun r => by
    obtain ⟨S, hS, -⟩ := restrict_spec cross_conforming rfl (by decide +kernel) hs (fun i => i / 2) r
    obtain ⟨s', hs'⟩ := sub_topological cross_conforming rfl (by decide +kernel) hs hS
    exact ⟨S, s', hS, hs'⟩
  choose S s' hS hs' using hSx
  have hd : ∀ g, g < FV.Geo.cross.nelem → g / 2 < 2 := fun g hg => by omega
  have hmono : ∀ i j, i < j → j < FV.Geo.cross.nelem → i / 2 ≤ j / 2 := fun i j h _ => Nat.div_le_div_right h.le
  have hb : ((air1 (rest 2)).disc FV.Geo.cross s 0).BcOk := fun k _ => rfl
  have hg : 4 ≤ 3 * (air1 (rest 2)).gas.g := by norm_num [air1, air]
  have hrep := split_represents FV.Geo.cross s (fun i => i / 2) halves
  refine ⟨s, cross_conforming, hs, cross_all hs _, air1 (rest 2), halves, _, S, s', halves_adm, hrep, hb, hS, hs', fun q hq cfl hcfl => ?_⟩
  have hq0 : 0 < q := by omega
  have hstep : ∀ (E : Disc) (u : ℕ → St), tbody q (rkRhs E) (rkDt E) cfl ⟨u, 0⟩ =
      some ⟨u - (kappa q * (rkDt E u * cfl)) • rkRhs E u, 0 + rkDt E u * cfl⟩ := fun E u => by
    simp only [tbody, C58_step hq, Option.map_some, if_pos hq0]
  obtain ⟨o, ho, hneg⟩ := halves_residual hs hf
  have hspec : ∀ r, IsSub FV.Geo.cross (fun i => i / 2) r (S r) ∧ ConnOk FV.Geo.cross s (fun i => i / 2) (S r) := fun r => by
    obtain ⟨S', hS', hsub, hcon, -⟩ := restrict_spec cross_conforming rfl (by decide +kernel) hs (fun i => i / 2) r
    rw [hS r] at hS'; cases hS'
    exact ⟨hsub, hcon⟩
  have hu : ∀ r i, i < (S r).mesh.nelem + (S r).mesh.nconnface →
      rankArray FV.Geo.cross s (fun i => i / 2) 2 (split FV.Geo.cross s (fun i => i / 2) halves) r (S r) i = halves (rowCell (S r) i) := fun r i hi =>
    rankArray_row cross_conforming rfl (by decide +kernel) hs hd hrep (hS r) (fun ic hic => by
      obtain ⟨g, j, k, r1, r2, -, -, r5, -⟩ := (hspec r).2.row ic hic
      rw [r5]; exact position_id_iff.2 hmono j r2.2.1.1) hi
  -- time steps of the ranks
  have hdt : ∀ r g0 : ℕ, g0 < 4 → g0 / 2 = r → rkDt ((air1 (rest 2)).rank FV.Geo.cross s (fun i => i / 2) 2 r (S r) (s' r))
      (rankArray FV.Geo.cross s (fun i => i / 2) 2 (split FV.Geo.cross s (fun i => i / 2) halves) r (S r)) =
      1 / 4 / (air.soundSpeedC (halves g0) * (1 + Real.sqrt 2)) := by
    intro r g0 hg0 hr
    obtain ⟨o2, o', h1, h2, -, h4⟩ := rank_rhs cross_conforming rfl (by decide +kernel) hs FV.Geo.cross_nozero (cross_all hs _) hd hmono (air1 (rest 2)) hb hg
      (fun i _ => halves_adm i) (hS r) (hs' r) (hu r)
    obtain ⟨l0, hl0⟩ := List.mem_iff_getElem?.1 (((hspec r).1.cells g0).2 ⟨by omega, hr⟩)
    have hl0n : l0 < (S r).mesh.nelem := (cells_lt cross_conforming rfl (by decide +kernel) hs (hS r) hl0).1
    have hts : ∀ l g : ℕ, (S r).cells[l]? = some g →
        ((air1 (rest 2)).rank FV.Geo.cross s (fun i => i / 2) 2 r (S r) (s' r)).timestep o'.uL o'.uR l = 1 / 4 / (air.soundSpeedC (halves g0) * (1 + Real.sqrt 2)) := fun l g hlg => by
      obtain ⟨-, c1, c2⟩ := cells_lt cross_conforming rfl (by decide +kernel) hs (hS r) hlg
      rw [h4 l g hlg, halves_timestep hs h1 (by omega)]
      have : halves g = halves g0 := by
        unfold halves
        have c2 : g / 2 = r := c2
        by_cases hlt : g < 2
        · rw [if_pos hlt, if_pos (by omega)]
        · rw [if_neg hlt, if_neg (by omega)]
      rw [this]
    have e2 : rkDt ((air1 (rest 2)).rank FV.Geo.cross s (fun i => i / 2) 2 r (S r) (s' r))
        (rankArray FV.Geo.cross s (fun i => i / 2) 2 (split FV.Geo.cross s (fun i => i / 2) halves) r (S r)) =
        (range (S r).mesh.nelem).inf' ⟨l0, Finset.mem_range.2 hl0n⟩ (((air1 (rest 2)).rank FV.Geo.cross s (fun i => i / 2) 2 r (S r) (s' r)).timestep o'.uL o'.uR) := by
      simp only [rkDt, h2]
      exact dif_pos (show (range (S r).mesh.nelem).Nonempty from ⟨l0, Finset.mem_range.2 hl0n⟩)
    rw [e2]
    refine le_antisymm ((Finset.inf'_le _ (Finset.mem_range.2 hl0n)).trans (hts l0 g0 hl0).le) (Finset.le_inf' _ _ fun l hl => ?_)
    obtain ⟨g, hlg, -⟩ := (hspec r).1.cell (Finset.mem_range.1 hl)
    exact (hts l g hlg).ge
  have hlt : 1 / 4 / (air.soundSpeedC (halves 0) * (1 + Real.sqrt 2)) < 1 / 4 / (air.soundSpeedC (halves 2) * (1 + Real.sqrt 2)) := by
    have h2 : (0 : ℝ) ≤ Real.sqrt 2 := Real.sqrt_nonneg 2
    have hc2 : 0 < air.soundSpeedC (halves 2) := Disc.soundSpeed_pos (halves_adm 2)
    have hc : air.soundSpeedC (halves 2) < air.soundSpeedC (halves 0) := by
      rw [show halves 2 = rest 2 from if_neg (by omega), show halves 0 = rest 1 from if_pos (by omega)]
      exact sound_rest one_pos one_lt_two
    gcongr
  have hd0 := hdt 0 0 (by omega) rfl
  have hd1 := hdt 1 2 (by omega) rfl
  refine ⟨_, fun r => _, hstep _ _, fun r => hstep _ _, ?_, ?_⟩
  · simp only [zero_add]
    rw [hd0, hd1]
    intro e
    exact hlt.ne (mul_right_cancel₀ hcfl e)
  · have hiff := C89_first_step_iff cross_conforming rfl (by decide +kernel) hs FV.Geo.cross_nozero (cross_all hs _) hd hmono (air1 (rest 2)) hb hg hq hcfl
      (fun i _ => halves_adm i) hrep hS hs' 0
    by_contra hno
    push Not at hno
    have hall2 := hiff.1 ⟨_, fun r => _, hstep _ _, fun r _ => hstep _ _, fun r hr l g hlg => hno r hr l g hlg⟩
    rcases hall2 1 (by omega) with e | e
    · rw [hd1] at e
      have hle : rkDt ((air1 (rest 2)).disc FV.Geo.cross s 0) halves ≤ 1 / 4 / (air.soundSpeedC (halves 0) * (1 + Real.sqrt 2)) := by
        have e1 : rkDt ((air1 (rest 2)).disc FV.Geo.cross s 0) halves =
            (range FV.Geo.cross.nelem).inf' ⟨0, Finset.mem_range.2 (by omega)⟩ (((air1 (rest 2)).disc FV.Geo.cross s 0).timestep o.uL o.uR) := by
          simp only [rkDt, ho]
          exact dif_pos (show (range FV.Geo.cross.nelem).Nonempty from ⟨0, Finset.mem_range.2 (by omega)⟩)
        rw [e1, ← halves_timestep hs ho (by omega : 0 < 4)]
        exact Finset.inf'_le _ (Finset.mem_range.2 (by omega))
      exact absurd hlt (not_lt.2 (e ▸ hle))
    · have := e 2 (by omega) rfl
      have := congrFun this 0
      simp only [rkRhs, ho] at this
      rw [if_pos (show 2 < ((air1 (rest 2)).disc FV.Geo.cross s 0).G.m.nelem from (by omega : 2 < FV.Geo.cross.nelem)), Pi.smul_apply, cross_area (by omega), smul_eq_mul,
        Pi.zero_apply] at this
      have : o.res 2 0 = 0 := by linarith
      exact hneg.ne this

/-- Hypotheses of `C89_one_process_partial` are met: all cells on rank 0, a final time that has passed after the first step is possible for every order. -/
example (q : ℤ) (hq : q = 1 ∨ q = 2 ∨ q = 3) : ∃ s, topological FV.Geo.cross = .ok s ∧ ∃ S s', restrict FV.Geo.cross s (fun _ => 0) 0 = .ok S ∧ topological S.mesh = .ok s' ∧
    ∃ T t', TvRun ((air1 (rest 2)).rank FV.Geo.cross s (fun _ => 0) 1 0 S s') q 1 T
      (rankArray FV.Geo.cross s (fun _ => 0) 1 (split FV.Geo.cross s (fun _ => 0) halves) 0 S) 1 (some t') := by
  obtain ⟨s, hs, hf⟩ := FV.Geo.cross_topological
  have hne : FV.Geo.cross.nelem = 4 := by decide +kernel
  obtain ⟨S, hS, -⟩ := restrict_spec cross_conforming rfl (by decide +kernel) hs (fun _ => 0) 0
  obtain ⟨s', hs'⟩ := sub_topological cross_conforming rfl (by decide +kernel) hs hS
  obtain ⟨o, ho, -⟩ := halves_residual hs hf
  have hpos : 0 < rkDt ((air1 (rest 2)).disc FV.Geo.cross s 0) halves := by
    have e1 : rkDt ((air1 (rest 2)).disc FV.Geo.cross s 0) halves =
        (range FV.Geo.cross.nelem).inf' ⟨0, Finset.mem_range.2 (by omega)⟩ (((air1 (rest 2)).disc FV.Geo.cross s 0).timestep o.uL o.uR) := by
      simp only [rkDt, ho]
      exact dif_pos (show (range FV.Geo.cross.nelem).Nonempty from ⟨0, Finset.mem_range.2 (by omega)⟩)
    rw [e1]
    refine (Finset.lt_inf'_iff _).2 fun i hi => ?_
    rw [halves_timestep hs ho (by have := Finset.mem_range.1 hi; omega)]
    have h2 : (0 : ℝ) ≤ Real.sqrt 2 := Real.sqrt_nonneg 2
    have hc2 : 0 < air.soundSpeedC (halves i) := Disc.soundSpeed_pos (halves_adm i)
    positivity
  have hq0 : 0 < q := by omega
  obtain ⟨t', h1, -⟩ := C89_one_process_partial (n := 1) cross_conforming rfl (by decide +kernel) hs FV.Geo.cross_nozero (air1 (rest 2)) (fun k _ => rfl)
    (by norm_num [air1, air]) (dist := fun _ => 0) (fun _ _ => rfl) one_pos (by omega) hS hs' hq (cfl := 1) (T := 1e-12) (w := halves)
    (split_represents _ _ _ _) (k := 1)
    (t := ⟨halves - (kappa q * (rkDt ((air1 (rest 2)).disc FV.Geo.cross s 0) halves * 1)) • rkRhs ((air1 (rest 2)).disc FV.Geo.cross s 0) halves,
      0 + rkDt ((air1 (rest 2)).disc FV.Geo.cross s 0) halves * 1⟩)
    (.step (by norm_num [tcond]) (by simp only [tbody, C58_step hq, Option.map_some, if_pos hq0]) (.done (by
      simp only [tcond, sub_self, zero_add, mul_one, not_le]; exact hpos))) (fun j hj m hm i hi => by
        obtain rfl : j = 0 := by omega
        cases hm
        exact halves_adm i)
  exact ⟨s, hs, S, s', hS, hs', _, t', h1⟩

end Par
end FVENS
