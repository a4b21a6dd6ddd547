import Verif.Par.ImplicitInexact

/-!
# Fixed points of the implicit solver with iterative linear solvers on several processes (C96)

Iterative linear solvers return different vectors on different partitions, so that runs differ. The states that an iteration leaves unchanged do not.
-/

namespace FVENS
namespace Par

open Msh FV FV.Disc Flux Ode Lin
open Finset (range sum_eq_zero sum_congr)

/-! ### Specification -/

/-- A linear solver on distributed vectors that returns once the residual is at most `rtol` times the right-hand side or at most `atol`. -/
def StopsOn (gm : Mesh) (s : FState) (dist : ℕ → ℕ) (n : ℕ) (nrm : (ℕ × ℕ → Blk (Fin 4)) → (ℕ → St) → ℝ) (rtol atol : ℝ)
    (ksp : (ℕ × ℕ → Blk (Fin 4)) → (ℕ → ℕ → St) → ℕ → ℕ → St) : Prop :=
  ∀ A b, Regular gm.nelem A →
    nrm A (fun p => (blockAt gm s dist n b p).getD 0 - matMult gm s dist n A (ksp A b) p) ≤ max (rtol * nrm A fun p => (blockAt gm s dist n b p).getD 0) atol

section part
variable {gm : Mesh} {s : FState} {dist : ℕ → ℕ}

/-- Exact solvers meet every tolerance. -/
theorem ExactOn.stops {n : ℕ} {ksp : (ℕ × ℕ → Blk (Fin 4)) → (ℕ → ℕ → St) → ℕ → ℕ → St} (h : ExactOn gm s dist n ksp) {nrm : (ℕ × ℕ → Blk (Fin 4)) → (ℕ → St) → ℝ}
    (hn : Gauge gm.nelem nrm) {rtol atol : ℝ} (ha : 0 ≤ atol) : StopsOn gm s dist n nrm rtol atol ksp := fun A b hA => by
  rw [(hn.zero_iff A _ hA).2 fun p hp => by rw [h A b hA p hp, sub_self]]
  exact le_max_of_le_right ha

variable (hc : Conforming gm) (hn : gm.nconnface = 0) (ht : gm.nbtag ≤ 4) (h : topological gm = .ok s) {n : ℕ} (hd : ∀ g, g < gm.nelem → dist g < n)
  (hz : NoZeroFace gm) (hall : AllRegistered gm s dist) (hmono : ∀ i j, i < j → j < gm.nelem → dist i ≤ dist j) (P : Settings)
include hc hn ht h hd hz hall hmono

theorem agree_inexact {J : St → St → V2 → FJ} {ev1 : (ℕ → St) → Option Disc.Out} {ev : (ℕ → ℕ → St) → ℕ → Option (Disc × Disc.Out)} {w : ℕ → St} {loc : ℕ → ℕ → St}
    (ha : Agree (P.disc gm s 0) gm s dist n ev1 ev w loc) (hDr : ∀ r S s', restrict gm s dist r = .ok S → topological S.mesh = .ok s' → ∀ D o, ev loc r = some (D, o) → D = P.rank gm s dist n r S s')
    (hJ : ∀ i j f, i < gm.nelem → j < gm.nelem → f < gm.nnode i → Across gm (i, f) (.cell j) →
      Mirror J (w i) (w j) (fNrm (nodeA gm i f) (nodeB gm i f)))
    (hl : Represents gm s dist loc w) {relax : St → St → ℝ} (hr0 : ∀ du i, i < gm.nelem → relax du (w i) ≠ 0)
    {nrm : (ℕ × ℕ → Blk (Fin 4)) → (ℕ → St) → ℝ} (hN : Gauge gm.nelem nrm) {rtol : ℝ} (h1 : rtol < 1)
    {ksp : (ℕ × ℕ → Blk (Fin 4)) → (ℕ → ℕ → St) → ℕ → ℕ → St} (hk : StopsOn gm s dist n nrm rtol 0 ksp) {o : Disc.Out} (ho : ev1 w = some o) {cfl : ℝ}
    (hR : Regular gm.nelem (sysOne (P.disc gm s 0) J w o cfl)) :
    Represents gm s dist ((solversI P gm s dist n ev J relax ksp).upd cfl loc) w ↔ ∀ i, i < gm.nelem → o.res i = 0 := by
  obtain ⟨o2, ho2, hr⟩ := id ha
  rw [ho] at ho2; cases ho2
  have : Nonempty Msh.Sub := ⟨(restrict_spec hc hn ht h dist 0).choose⟩
  have : Nonempty Disc := ⟨P.disc gm s 0⟩
  have : Nonempty Disc.Out := ⟨o⟩
  choose! T D o' hT hev hm hcell hghost using hr
  choose S hS hspec hcon _ using fun r => restrict_spec hc hn ht h dist r
  have hTS : ∀ r, r < n → T r = S r := fun r hr => by
    have := hT r hr
    rw [hS r] at this
    exact (BC.Res.ok.inj this).symm
  have hadd : ∀ r, r < n → ∀ l, ghostAdd gm s dist n (evRes ev loc) r l = (o' r).res l := fun r hr l => by
    unfold ghostAdd
    have e : ∀ q, q < n → evRes ev loc q = (o' q).res := fun q hq => by simp only [evRes, hev q hq]
    rw [e r hr, Finset.sum_eq_zero fun q hq => ?_, add_zero]
    have hq := Finset.mem_range.1 hq
    simp only [hT q hq]
    refine Finset.sum_eq_zero fun ic _ => ?_
    rw [e q hq, hghost q hq _ (by omega)]
    simp
  have hAeq : ∀ gi gc, gi < gm.nelem → evSysAll P gm s dist n ev J loc cfl (gi, gc) = sysOne (P.disc gm s 0) J w o cfl (gi, gc) := fun gi gc hgi =>
    agree_sysAll hc hn ht h hd hz hall hmono P ha hDr hJ hl cfl ho hgi gc
  have hR' : Regular gm.nelem (evSysAll P gm s dist n ev J loc cfl) := hR.congr fun i q hi _ => (hAeq i q hi).symm
  have hst := hk (evSysAll P gm s dist n ev J loc cfl) (ghostAdd gm s dist n (evRes ev loc)) hR'
  set A := evSysAll P gm s dist n ev J loc cfl with hA
  set b := ghostAdd gm s dist n (evRes ev loc) with hb
  set dl := ksp A b with hdl
  obtain ⟨x, hx⟩ := represents_some hc hn ht h (dist := dist) dl
  have hbrep : Represents gm s dist b o.res := by
    intro r S' hS' l g hlg
    rw [hS r] at hS'; cases hS'
    have hgn := ((hspec r).cells g).1 (List.mem_of_getElem? hlg)
    have hr : r < n := hgn.2 ▸ hd g hgn.1
    have hll : l < (T r).mesh.nelem := by rw [hTS r hr, (hspec r).nelem]; exact (List.getElem?_eq_some_iff.1 hlg).1
    rw [hadd r hr, (hcell r hr l hll).1, hTS r hr, List.getD_eq_getElem?_getD, hlg, Option.getD_some]
  have hpos : ∀ p, p < gm.nelem → position gm.nelem dist p = p := position_id_iff.2 hmono
  have hbe : ∀ p, p < gm.nelem → (blockAt gm s dist n b p).getD 0 = o.res p := fun p hp => by
    have e1 := blockAt_position hc hn ht h hd hbrep hp
    rw [hpos p hp] at e1
    rw [e1, Option.getD_some]
  have hmul : ∀ p, matMult gm s dist n A dl p = mulRow gm.nelem A x p := fun p =>
    mulRow_congr (x := fun q => (blockAt gm s dist n dl q).getD 0) (y := x) (fun _ _ => rfl) fun q hq => by
      have e2 := blockAt_position hc hn ht h hd hx hq
      rw [hpos q hq] at e2
      rw [e2, Option.getD_some]
  have hupd : ∀ r, r < n → (solversI P gm s dist n ev J relax ksp).upd cfl loc r = relaxed (T r).mesh.nelem relax (dl r) (loc r) := fun r hr => by
    simp only [solversI, hev r hr, ← hm r hr, ← hA, ← hb, ← hdl]
  have hfix : Represents gm s dist ((solversI P gm s dist n ev J relax ksp).upd cfl loc) w ↔ ∀ g, g < gm.nelem → x g = 0 := by
    constructor
    · intro hu g hg
      obtain ⟨l, hlt, he⟩ := List.mem_iff_getElem.1 (((hspec (dist g)).cells g).2 ⟨hg, rfl⟩)
      have hlg : (S (dist g)).cells[l]? = some g := by rw [List.getElem?_eq_getElem hlt, he]
      have hr := hd g hg
      have hll : l < (T (dist g)).mesh.nelem := by rw [hTS _ hr, (hspec _).nelem]; exact hlt
      have e := hu _ _ (hS (dist g)) l g hlg
      rw [hupd _ hr] at e
      simp only [relaxed, if_pos hll, hx _ _ (hS _) l g hlg, hl _ _ (hS _) l g hlg] at e
      funext v
      have e2 : relax (x g) (w g) * x g v = 0 := by
        have := congrFun e v
        linarith
      exact (mul_eq_zero.1 e2).resolve_left (hr0 _ g hg)
    · intro hx0 r S' hS' l g hlg
      rw [hS r] at hS'; cases hS'
      have hgn := ((hspec r).cells g).1 (List.mem_of_getElem? hlg)
      have hr : r < n := hgn.2 ▸ hd g hgn.1
      have hll : l < (T r).mesh.nelem := by rw [hTS r hr, (hspec r).nelem]; exact (List.getElem?_eq_some_iff.1 hlg).1
      rw [hupd r hr]
      simp only [relaxed, if_pos hll, hx r (S r) (hS r) l g hlg, hx0 g hgn.1, hl r (S r) (hS r) l g hlg]
      simp
  rw [hfix]
  constructor
  · intro hx0 i hi
    have e : (fun p => (blockAt gm s dist n b p).getD 0 - matMult gm s dist n A dl p) = fun p => (blockAt gm s dist n b p).getD 0 := by
      funext p
      rw [hmul, mulRow_congr (B := A) (y := fun _ => 0) (fun _ _ => rfl) hx0, mulRow_zero, sub_zero]
    rw [e] at hst
    have h0 := hN.nonneg A fun p => (blockAt gm s dist n b p).getD 0
    have hle : nrm A (fun p => (blockAt gm s dist n b p).getD 0) ≤ 0 := by
      rcases le_max_iff.1 hst with h2 | h2
      · nlinarith
      · exact h2
    rw [← hbe i hi]
    exact (hN.zero_iff A _ hR').1 (le_antisymm hle h0) i hi
  · intro hz0
    have hb0 : nrm A (fun p => (blockAt gm s dist n b p).getD 0) = 0 := (hN.zero_iff A _ hR').2 fun p hp => by rw [hbe p hp, hz0 p hp]
    rw [hb0, mul_zero, max_self] at hst
    refine hR' x fun p hp => ?_
    have h3 := (hN.zero_iff A _ hR').1 (le_antisymm hst (hN.nonneg _ _)) p hp
    rw [hbe p hp, hz0 p hp, zero_sub, hmul] at h3
    exact neg_eq_zero.1 h3

/-- C96, first order: on any number of processes, for every assignment of cells that is non-decreasing along the cell numbering and registers all interface faces, an iteration with an
iterative linear solver of relative tolerance below one leaves unchanged exactly the states at which the residual of the single process vanishes. Missing for the full claim: other
assignments (C82_refuted, C88_refuted). -/
theorem C96_inexact_processes_partial (hb : (P.disc gm s 0).BcOk) (hg : 4 ≤ 3 * P.gas.g) {J : St → St → V2 → FJ} {w : ℕ → St} (hw : ∀ i, i < gm.nelem → Adm P.gas (w i))
    (hJ : ∀ i j f, i < gm.nelem → j < gm.nelem → f < gm.nnode i → Across gm (i, f) (.cell j) →
      Mirror J (w i) (w j) (fNrm (nodeA gm i f) (nodeB gm i f)))
    {loc : ℕ → ℕ → St} (hl : Represents gm s dist loc w) {relax : St → St → ℝ} (hr0 : ∀ du i, i < gm.nelem → relax du (w i) ≠ 0)
    {nrm : (ℕ × ℕ → Blk (Fin 4)) → (ℕ → St) → ℝ} (hN : Gauge gm.nelem nrm) {rtol : ℝ} (h1 : rtol < 1)
    {ksp : (ℕ × ℕ → Blk (Fin 4)) → (ℕ → ℕ → St) → ℕ → ℕ → St} (hk : StopsOn gm s dist n nrm rtol 0 ksp) {cfl : ℝ}
    (hR : ∀ o, (P.disc gm s 0).residual1 w 0 = some o → Regular gm.nelem (sysOne (P.disc gm s 0) J w o cfl)) :
    Represents gm s dist ((implicits P gm s dist n J relax ksp).upd cfl loc) w ↔ IsSteady (P.disc gm s 0) w := by
  obtain ⟨o, ho, hr⟩ := rankEval_spec hc hn ht h hz hall hd hmono P hb hg hw hl
  have hDr : ∀ r T t, restrict gm s dist r = .ok T → topological T.mesh = .ok t → ∀ D o, rankEval P gm s dist n loc r = some (D, o) → D = P.rank gm s dist n r T t := by
    intro r T t h1 h2 D o h3
    simp only [rankEval, h1, h2, Option.map_eq_some_iff] at h3
    obtain ⟨a, -, h4⟩ := h3
    exact (Prod.mk.inj h4).1.symm
  rw [← solversI_first, agree_inexact hc hn ht h hd hz hall hmono P (ev1 := fun u => (P.disc gm s 0).residual1 u 0) ⟨o, ho, fun r _ => hr r⟩ hDr hJ hl hr0 hN h1 hk ho (hR o ho)]
  constructor
  · exact fun hz0 => ⟨o, ho, hz0⟩
  · rintro ⟨o2, ho2, hz0⟩
    rw [ho] at ho2; cases ho2
    exact hz0

/-- C96, second order, under the hypotheses of `C96_second_order_run_partial` with an iterative linear solver of relative tolerance below one: an iteration on several processes leaves
unchanged exactly the states at which the second-order residual of the single process vanishes. Missing for the full claim: other assignments. -/
theorem C96_inexact_processes_second_partial {gs : GradScheme} {R : ReconScheme} (E0 : (ℕ → St) → Disc.Env) {E : (ℕ → ℕ → St) → ℕ → Disc.Env}
    {S : ℕ → Sub} {s' : ℕ → FState} (hS : ∀ r, restrict gm s dist r = .ok (S r)) (hs' : ∀ r, topological (S r).mesh = .ok (s' r)) {w : ℕ → St} {loc : ℕ → ℕ → St}
    (hE : Received gm s dist n gs R S (fun r => P.rank gm s dist n r (S r) (s' r)) (fun r => rankArray gm s dist n loc r (S r)) (E loc))
    {J : St → St → V2 → FJ} (hl : Represents gm s dist loc w)
    (hJ : ∀ i j f, i < gm.nelem → j < gm.nelem → f < gm.nnode i → Across gm (i, f) (.cell j) →
      Mirror J (w i) (w j) (fNrm (nodeA gm i f) (nodeB gm i f))) {relax : St → St → ℝ} (hr0 : ∀ du i, i < gm.nelem → relax du (w i) ≠ 0)
    {nrm : (ℕ × ℕ → Blk (Fin 4)) → (ℕ → St) → ℝ} (hN : Gauge gm.nelem nrm) {rtol : ℝ} (h1 : rtol < 1)
    {ksp : (ℕ × ℕ → Blk (Fin 4)) → (ℕ → ℕ → St) → ℕ → ℕ → St} (hk : StopsOn gm s dist n nrm rtol 0 ksp) {o : Disc.Out} (ho : (P.disc gm s 0).residual2 gs R (E0 w) w 0 = some o)
    (hsw : ∀ k, k < (P.disc gm s 0).G.nface → (P.disc gm s 0).G.inner k → (P.disc gm s 0).SwapOk (o.uR k) (o.uL k)) {cfl : ℝ}
    (hR : Regular gm.nelem (sysOne (P.disc gm s 0) J w o cfl)) :
    Represents gm s dist ((solversI P gm s dist n (rankEval2 P gm s dist n gs R E) J relax ksp).upd cfl loc) w ↔ ∀ i, i < gm.nelem → o.res i = 0 := by
  have hDr : ∀ r T t, restrict gm s dist r = .ok T → topological T.mesh = .ok t → ∀ D o, rankEval2 P gm s dist n gs R E loc r = some (D, o) → D = P.rank gm s dist n r T t := by
    intro r T t h1 h2 D o h3
    simp only [rankEval2, h1, h2, Option.map_eq_some_iff] at h3
    obtain ⟨a, -, h4⟩ := h3
    exact (Prod.mk.inj h4).1.symm
  exact agree_inexact hc hn ht h hd hz hall hmono P (ev1 := fun u => (P.disc gm s 0).residual2 gs R (E0 u) u 0)
    (agree_second hc hn ht h hd hz hall hmono P (E0 := E0) hl hS hs' hE ⟨o, ho, hsw⟩) hDr hJ hl hr0 hN h1 hk ho hR

end part

/-! ### The square cut by its diagonals, on two ranks -/

/-- A gas at rest that is denser in one cell, a linear solver that reduces the residual to a tenth: at small CFL numbers an iteration on two ranks changes the state at first order;
with the second-order discretisation none started in the far field does. -/
example (E1 : Disc.Env) (h0 : ∀ i, E1.gg i = 0) (hx : ∀ k, E1.exch k = rest 1) : ∃ s, topological FV.Geo.cross = .ok s ∧ ∃ E, ∀ ksp, StopsOn FV.Geo.cross s (fun i => i / 2) 2 (sumAbs FV.Geo.cross.nelem) (1 / 10) 0 ksp →
    ∃ c0, 0 < c0 ∧ ∀ cfl, 0 < cfl → cfl ≤ c0 →
    ¬ Represents FV.Geo.cross s (fun i => i / 2) ((implicits (air1 (rest 1)) FV.Geo.cross s (fun i => i / 2) 2 (llfJac air) (fun _ _ => 1) ksp).upd cfl
      (split FV.Geo.cross s (fun i => i / 2) bump)) bump ∧
    Represents FV.Geo.cross s (fun i => i / 2) ((solversI (air1 (rest 1)) FV.Geo.cross s (fun i => i / 2) 2 (rankEval2 (air1 (rest 1)) FV.Geo.cross s (fun i => i / 2) 2 .zero .linear E)
      (llfJac air) (fun _ _ => 1) ksp).upd cfl (split FV.Geo.cross s (fun i => i / 2) fun _ => rest 1)) fun _ => rest 1 := by
  obtain ⟨s, hs, hf⟩ := FV.Geo.cross_topological
  have hne : FV.Geo.cross.nelem = 4 := by decide +kernel
  have hd : ∀ g, g < FV.Geo.cross.nelem → g / 2 < 2 := fun g hg => by omega
  have hmono : ∀ i j, i < j → j < FV.Geo.cross.nelem → i / 2 ≤ j / 2 := fun i j h _ => Nat.div_le_div_right h.le
  set D := (air1 (rest 1)).disc FV.Geo.cross s 0 with hD
  have hok : D.G.Ok := ⟨cross_conforming, FV.Geo.cross_nozero, hs⟩
  have hb : D.BcOk := fun k _ => rfl
  have har : ∀ i, i < D.G.m.nelem → 0 < D.G.ar i := fun i hi => by
    have hi : i < FV.Geo.cross.nelem := hi
    rw [hD, cross_area (by omega)]; norm_num
  choose S hS _ using fun r => restrict_spec cross_conforming rfl (by decide +kernel) hs (fun i => i / 2) r
  choose s' hs' using fun r => sub_topological cross_conforming rfl (by decide +kernel) hs (hS r)
  obtain ⟨E, hE⟩ := receivedAll_exists cross_conforming rfl (by decide +kernel) hs hd (cross_all hs _) hmono (air1 (rest 1)) .zero .linear (s' := s') hS fun _ => E1
  obtain ⟨c1, h1, r1⟩ := regular_small (u := bump) hok (air1_gasOk s) hb (fun i _ => bump_adm i) har (llfJac air)
  obtain ⟨o2, ho2, hz2, -⟩ := Disc.C43_second_order (D := D) (gs := .zero) (R := .linear) (u := fun _ => rest 1) (E := E1) hok (rest_adm one_pos)
    (fun _ _ => rfl) trivial trivial (fun h => by rcases h with h | ⟨K, h⟩ <;> cases h) (fun _ _ => rfl) (fun k _ _ _ => hx k) (fun i _ => h0 i) 0
  have hg : D.gas.g ≠ 1 := by show air.g ≠ 1; norm_num [air]
  have hst : ∀ k, k < D.G.nface → o2.uL k = rest 1 ∧ (D.G.inner k → o2.uR k = rest 1) := fun k hk =>
    zero_linear_states (D := D) (u := fun _ => rest 1) hok hg (fun i _ => (rest_adm one_pos).rho.ne') ho2 hk
  obtain ⟨c2, C, h2, r2⟩ := C96_small_cfl D (llfJac air) (fun _ => rest 1) o2 har fun i hi =>
    (Disc.C51_positive_bounded hok (air1_gasOk s) (fun k hk => by rw [(hst k hk).1]; exact rest_adm one_pos) (fun k hk hin => by rw [(hst k hk).2 hin]; exact rest_adm one_pos) hi (har i hi)).1
  refine ⟨s, hs, E, fun ksp hk => ⟨min c1 c2, lt_min h1 h2, fun cfl hc hc' => ⟨fun e => ?_, ?_⟩⟩⟩
  · obtain ⟨o, ho, hpos, -⟩ := cross_interleaved hs hf 0
    obtain ⟨o', ho', hz0⟩ := (C96_inexact_processes_partial cross_conforming rfl (by decide +kernel) hs hd FV.Geo.cross_nozero (cross_all hs _) hmono (air1 (rest 1)) hb
      (by norm_num [air1, air]) (fun i _ => bump_adm i) (fun i j f _ _ _ _ => C83_llf _ _ _ _) (split_represents _ _ _ bump) (fun _ _ _ => one_ne_zero) (sumAbs_gauge _) (by norm_num) hk
      (r1 cfl hc (hc'.trans (min_le_left _ _)))).1 e
    rw [ho] at ho'; cases ho'
    have := congrFun (hz0 0 (by show 0 < FV.Geo.cross.nelem; omega)) 0
    rw [this] at hpos
    exact lt_irrefl _ hpos
  · exact (C96_inexact_processes_second_partial cross_conforming rfl (by decide +kernel) hs hd FV.Geo.cross_nozero (cross_all hs _) hmono (air1 (rest 1)) (fun _ => E1) hS hs'
      (hE _) (split_represents _ _ _ fun _ => rest 1) (fun i j f _ _ _ _ => C83_llf _ _ _ _) (fun _ _ _ => one_ne_zero) (sumAbs_gauge _) (by norm_num) hk ho2
      (fun k _ _ n _ v => llf_swap air _ _ n v) (r2 cfl hc (hc'.trans (min_le_right _ _))).1).2 hz2

end Par
end FVENS
