import Verif.Par.AsyncRun
import Verif.FV.SimilarRecon

/-!
# The unsteady solver on processes running at their own pace (C118)

`TVDRKSolver` takes the time step from the cells of its own process, so processes pass the final time after different numbers of steps. The second-order residual exchanges gradients and
face values with the other processes in every stage.
-/

namespace FVENS
namespace Par

open Msh FV Flux Ode
open Finset (range)

/-- A process in the time loop: before the test, before a stage of a step (with the stages left, whether it is the first, the stage solution and the time step), ended. -/
inductive Tst (V : Type)
  | top (m : TMem V)
  | stage (left : List (ℝ × ℝ × ℝ)) (first : Bool) (m : TMem V) (us : V) (dt : ℝ)
  | ended (m : TMem V)

/-- What the evaluation of the residual exchanges, and what it gives: residual over areas, smallest time step of the process's cells. -/
structure Exch (n : ℕ) (V X : Type) where
  send : Fin n → V → X
  exch : (Fin n → X) → Fin n → X
  ev : Fin n → V → X → V × ℝ

section
variable {n : ℕ} {V X : Type} [AddCommGroup V] [Module ℝ V] (I : Exch n V X) (rows : List (ℝ × ℝ × ℝ)) (cfl T : ℝ)

open Classical in
/-- Time loop of a process, src/ode/aodesolver.cpp:706-758. -/
noncomputable def tvAct (r : Fin n) : Tst V → Act (Tst V) X
  | .top m => .loc (if tcond T m then .stage rows true m m.u 0 else .ended m)
  | .stage [] _ m us dt => .loc (.top ⟨us, m.time + dt * cfl⟩)
  | .stage (c :: cs) first m us dt => .coll 0 (I.send r m.u) fun x =>
      .stage cs false m (c.1 • m.u + c.2.1 • us - (c.2.2 * ((if first then (I.ev r m.u x).2 else dt) * cfl)) • (I.ev r m.u x).1) (if first then (I.ev r m.u x).2 else dt)
  | .ended _ => .halt

/-- The processes. -/
noncomputable def tvWorld : World n (Tst V) X := ⟨tvAct I rows cfl T, fun _ v r => I.exch v r⟩

/-- Time step that process `r` finds when the processes hold `u`. -/
def Exch.dt (u : Fin n → V) (r : Fin n) : ℝ := (I.ev r (u r) (I.exch (fun q => I.send q (u q)) r)).2

variable {I rows cfl T}

/-- C118 fails for the unsteady solver if evaluations involve the other processes: when one process passes the final time with its first step and another does not, every execution comes to a
point where a process waits for ever. -/
theorem C118_unsteady_hangs (hrows : rows ≠ []) (hT : 0 ≤ T - 1e-12) (u : Fin n → V) {r q : Fin n} (hr : T - 1e-12 < I.dt u r * cfl) (hq : I.dt u q * cfl ≤ T - 1e-12) :
    (tvWorld I rows cfl T).Hangs fun p => .top ⟨u p, 0⟩ := by
  have hn : 0 < n := r.pos
  obtain ⟨c0, cs, rfl⟩ := List.exists_cons_of_ne_nil hrows
  have h0 : ∀ p, tcond T (⟨u p, 0⟩ : TMem V) := fun p => hT
  refine World.runs_of_own (b := fun p => .stage (c0 :: cs) true ⟨u p, 0⟩ (u p) 0) (d := fun _ => 1) (fun p => .step (l1 := .stage (c0 :: cs) true ⟨u p, 0⟩ (u p) 0) ?_ .refl)
    (fun p l => by show tvAct I (c0 :: cs) cfl T p (.stage (c0 :: cs) true ⟨u p, 0⟩ (u p) 0) ≠ _; simp [tvAct]) ?_
  · show tvAct I (c0 :: cs) cfl T p (.top ⟨u p, 0⟩) = _
    simp only [tvAct, h0 p, if_true]
  -- the stages after the first
  have hst : ∀ (l : List (ℝ × ℝ × ℝ)) (us : Fin n → V), (tvWorld I (c0 :: cs) cfl T).Hangs fun p => .stage l false ⟨u p, 0⟩ (us p) (I.dt u p) := by
    intro l
    induction l with
    | cons c l ih =>
      intro us
      refine World.runs_of_coll hn (c := 0) (v := fun p => I.send p (u p)) (k := fun p x =>
        .stage l false ⟨u p, 0⟩ (c.1 • u p + c.2.1 • us p - (c.2.2 * (I.dt u p * cfl)) • (I.ev p (u p) x).1) (I.dt u p)) (fun p => ?_) (ih _)
      show tvAct I (c0 :: cs) cfl T p (.stage (c :: l) false ⟨u p, 0⟩ (us p) (I.dt u p)) = _
      simp [tvAct]
    | nil =>
      intro us
      classical
      let m1 : Fin n → TMem V := fun p => ⟨us p, 0 + I.dt u p * cfl⟩
      let b : Fin n → Tst V := fun p => if tcond T (m1 p) then .stage (c0 :: cs) true (m1 p) (us p) 0 else .ended (m1 p)
      refine World.runs_of_own (b := b) (d := fun _ => 2) (fun p => .step (l1 := .top (m1 p)) ?_ (.step (l1 := b p) ?_ .refl)) (fun p l => ?_) ?_
      · show tvAct I (c0 :: cs) cfl T p (.stage [] false ⟨u p, 0⟩ (us p) (I.dt u p)) = _
        simp [tvAct, m1]
      · show tvAct I (c0 :: cs) cfl T p (.top (m1 p)) = _
        simp only [tvAct, b]
        rfl
      · show tvAct I (c0 :: cs) cfl T p (b p) ≠ _
        simp only [b]
        split_ifs <;> simp [tvAct]
      · have hbr : b r = .ended (m1 r) := if_neg fun h => by
          have : 0 + I.dt u r * cfl ≤ T - 1e-12 := h
          linarith
        have hbq : b q = .stage (c0 :: cs) true (m1 q) (us q) 0 := if_pos (by
          show 0 + I.dt u q * cfl ≤ T - 1e-12
          linarith)
        refine World.runs_of_stuck ?_ fun he => ?_
        · rintro ⟨t, ht⟩
          cases ht with
          | @loc p l hl =>
            have hl : tvAct I (c0 :: cs) cfl T p (b p) = .loc l := hl
            simp only [b] at hl
            split_ifs at hl <;> simp [tvAct] at hl
          | coll v k hv =>
            have := hv r
            rw [hbr] at this
            cases this
        · have := he q
          rw [hbq] at this
          cases this
  refine World.runs_of_coll hn (c := 0) (v := fun p => I.send p (u p)) (k := fun p x =>
    .stage cs false ⟨u p, 0⟩ (c0.1 • u p + c0.2.1 • u p - (c0.2.2 * ((I.ev p (u p) x).2 * cfl)) • (I.ev p (u p) x).1) (I.ev p (u p) x).2) (fun p => ?_) (hst cs _)
  show tvAct I (c0 :: cs) cfl T p (.stage (c0 :: cs) true ⟨u p, 0⟩ (u p) 0) = _
  simp [tvAct]

/-- Two processes that exchange numbers in each stage; process 0 finds time step 1, process 1 finds 3. With second order, CFL number 1 and final time 2 process 0 is left waiting. -/
example (u : Fin 2 → ℝ) : (tvWorld (⟨fun _ v => v, fun v r => v (1 - r), fun r v x => (x - v, if r = 0 then 1 else 3)⟩ : Exch 2 ℝ ℝ) [(1, 0, 1), (1/2, 1/2, 1/2)] 1 2).Hangs fun p => .top ⟨u p, 0⟩ :=
  C118_unsteady_hangs (by simp) (by norm_num) u (r := 1) (q := 0) (by simp [Exch.dt]; norm_num) (by simp [Exch.dt]; norm_num)

end

/-! ### Second order with gradients set to zero -/

/-- With zero gradients, time steps are those of the first-order discretisation. -/
theorem zero_timestep {D : Disc} (hok : D.G.Ok) (hb : D.BcOk) (hg : D.gas.g ≠ 1) {u : ℕ → St} (hu : ∀ i, i < D.G.m.nelem → u i 0 ≠ 0) (E : Disc.Env) {o1 : Disc.Out}
    (h1 : D.residual1 u 0 = some o1) :
    ∃ o2, D.residual2 .zero .linear E u 0 = some o2 ∧ ∀ i, i < D.G.m.nelem → D.timestep o2.uL o2.uR i = D.timestep o1.uL o1.uR i := by
  obtain ⟨o2, h2⟩ := residual2_defined hok hb (gs := .zero) (R := .linear) trivial (fun h => by rcases h with h | ⟨K, h⟩ <;> cases h) E u 0
  refine ⟨o2, h2, fun i hi => ?_⟩
  obtain ⟨-, a, ha, hL, hR, -⟩ := Disc.residual2_some.1 h2
  unfold Disc.rec2 at ha
  obtain ⟨x, hx, hface⟩ := Disc.recon_linear hok _ _ _ _
  rw [hx, Option.some.injEq] at ha
  subst ha
  unfold Disc.residual1 at h1
  rw [if_pos hb] at h1
  cases h1
  unfold Disc.timestep
  rw [Disc.C51_integral hok _ _ hi, Disc.C51_integral hok _ _ hi]
  congr 1
  refine Finset.sum_congr rfl fun k hk => ?_
  obtain ⟨hk, htouch⟩ := Finset.mem_filter.1 hk
  have hk := Finset.mem_range.1 hk
  obtain ⟨k1, k2, -, k4, -⟩ := hok.kind hk
  have hzero : ∀ (j : ℕ), j < D.G.m.nelem → ∀ (g : ℕ → Gr) (p q : V2), g = D.gradients .zero (fun i => D.gas.primOfCons (u i)) (fun k => D.gas.primOfCons (D.bstate k (u (D.G.face k).left))) E.gold →
      D.gas.consOfPrim (fun v => linExt (D.gas.primOfCons (u j) v) (fun d => g j d v) 1 p q) = u j := fun j hj g p q hgr => by
    rw [← C01_cons_prim_cons D.gas hg (u j) (hu j hj)]
    congr 1
    funext v
    rw [hgr, C01_cons_prim_cons D.gas hg (u j) (hu j hj)]
    simp [Disc.gradients, if_pos hj, linExt]
  unfold Disc.sideRad
  congr 1
  by_cases e : (D.G.face k).left = i
  · rw [if_pos e, if_pos e, hL, (hface k hk).1]
    exact hzero _ (e ▸ hi) _ _ _ rfl
  · rw [if_neg e, if_neg e]
    have er : (D.G.face k).right = i := htouch.resolve_left e
    have hin : D.G.inner k := k4.2 (er ▸ hi)
    rw [hR, if_neg (not_lt.2 hin.1), if_pos hin, (hface k hk).2 hin]
    simp only [if_neg (not_lt.2 hin.1)]
    exact hzero _ (er ▸ hi) _ _ _ rfl

open Classical in
/-- Residual over areas and smallest time step of the cells of one process, second order. -/
noncomputable def rk2 (D : Disc) (gs : GradScheme) (R : ReconScheme) (E : Disc.Env) (u : ℕ → St) : (ℕ → St) × ℝ := match D.residual2 gs R E u 0 with
  | some o => (fun l => if l < D.G.m.nelem then (1 / D.G.ar l) • o.res l else 0,
      if h : (range D.G.m.nelem).Nonempty then (range D.G.m.nelem).inf' h (D.timestep o.uL o.uR) else 0)
  | none => 0

/-- C118 fails for the second-order unsteady solver. A square of four triangles, two on each of two ranks, interface faces registered, cell numbers in the order of the ranks; gas at rest, denser
in the cells of rank 1. For every order, every positive CFL number and whatever the ranks send to each other, there are final times for which every execution comes to a point where a rank waits
for ever for one that has ended. -/
theorem C118_unsteady_refuted : ∃ s, Conforming FV.Geo.cross ∧ topological FV.Geo.cross = .ok s ∧ AllRegistered FV.Geo.cross s (fun i => i / 2) ∧
    ∃ (P : Settings) (w : ℕ → St) (loc : ℕ → ℕ → St) (S : ℕ → Sub) (s' : ℕ → FState), (∀ i, Adm P.gas (w i)) ∧ Represents FV.Geo.cross s (fun i => i / 2) loc w ∧
      (P.disc FV.Geo.cross s 0).BcOk ∧ (∀ r, restrict FV.Geo.cross s (fun i => i / 2) r = .ok (S r)) ∧ (∀ r, topological (S r).mesh = .ok (s' r)) ∧
      ∀ (X : Type) (send : Fin 2 → (ℕ → St) → X) (exch : (Fin 2 → X) → Fin 2 → X) (E : Fin 2 → X → Disc.Env) (q : ℤ) (rows : List (ℝ × ℝ × ℝ)) (cfl : ℝ),
        q = 1 ∨ q = 2 ∨ q = 3 → tvdrk q = some rows → 0 < cfl → ∃ T, 0 < T ∧
          (tvWorld ⟨send, exch, fun r u x => rk2 (P.rank FV.Geo.cross s (fun i => i / 2) 2 r (S r) (s' r)) .zero .linear (E r x) u⟩ rows cfl T).Hangs
            fun r => .top ⟨rankArray FV.Geo.cross s (fun i => i / 2) 2 loc r (S r), 0⟩ := by
  obtain ⟨s, hs, hf⟩ := FV.Geo.cross_topological
  have hne : FV.Geo.cross.nelem = 4 := by decide +kernel
  have hSx : ∀ r, ∃ S s', restrict FV.Geo.cross s (fun i => i / 2) r = .ok S ∧ topological S.mesh = .ok s' := fun r => by
    obtain ⟨S, hS, -⟩ := restrict_spec cross_conforming rfl (by decide +kernel) hs (fun i => i / 2) r
    obtain ⟨s', hs'⟩ := sub_topological cross_conforming rfl (by decide +kernel) hs hS
    exact ⟨S, s', hS, hs'⟩
  choose S s' hS hs' using hSx
  have hd : ∀ g, g < FV.Geo.cross.nelem → g / 2 < 2 := fun g hg => by omega
  have hmono : ∀ i j, i < j → j < FV.Geo.cross.nelem → i / 2 ≤ j / 2 := fun i j h _ => Nat.div_le_div_right h.le
  have hb : ((air1 (rest 2)).disc FV.Geo.cross s 0).BcOk := fun k _ => rfl
  have hg : 4 ≤ 3 * (air1 (rest 2)).gas.g := by norm_num [air1, air]
  have hrep := split_represents FV.Geo.cross s (fun i => i / 2) halves
  refine ⟨s, cross_conforming, hs, cross_all hs _, air1 (rest 2), halves, _, S, s', halves_adm, hrep, hb, hS, hs', fun X send exch E q rows cfl hq hrows hcfl => ?_⟩
  have hspec : ∀ r, IsSub FV.Geo.cross (fun i => i / 2) r (S r) ∧ ConnOk FV.Geo.cross s (fun i => i / 2) (S r) := fun r => by
    obtain ⟨S', hS', hsub, hcon, -⟩ := restrict_spec cross_conforming rfl (by decide +kernel) hs (fun i => i / 2) r
    rw [hS r] at hS'; cases hS'
    exact ⟨hsub, hcon⟩
  have hpos : ∀ r ic, ic < (S r).mesh.nconnface → position FV.Geo.cross.nelem (fun i => i / 2) ((S r).mesh.connface ic 3) = (S r).mesh.connface ic 3 := fun r ic hic => by
    obtain ⟨g, j, k, r1, r2, -, -, r5, -⟩ := (hspec r).2.row ic hic
    rw [r5]; exact position_id_iff.2 hmono j r2.2.1.1
  set arr : ℕ → ℕ → St := fun r => rankArray FV.Geo.cross s (fun i => i / 2) 2 (split FV.Geo.cross s (fun i => i / 2) halves) r (S r) with harr
  set D : ℕ → Disc := fun r => (air1 (rest 2)).rank FV.Geo.cross s (fun i => i / 2) 2 r (S r) (s' r) with hDdef
  have hu : ∀ r i, i < (S r).mesh.nelem + (S r).mesh.nconnface → arr r i = halves (rowCell (S r) i) := fun r i hi =>
    rankArray_row cross_conforming rfl (by decide +kernel) hs hd hrep (hS r) (hpos r) hi
  have hok : ∀ r, (D r).G.Ok ∧ (D r).BcOk := fun r => by
    obtain ⟨hok, τ, hcp⟩ := rank_copy cross_conforming rfl (by decide +kernel) hs FV.Geo.cross_nozero (cross_all hs _) hd (air1 (rest 2)) (hS r) (hpos r) (hs' r)
    exact ⟨hok, hcp.bcOk hok hb⟩
  -- time steps of the ranks
  have hdt : ∀ (r g0 : ℕ) (e : Disc.Env), g0 < 4 → g0 / 2 = r → (rk2 (D r) .zero .linear e (arr r)).2 = 1 / 4 / (air.soundSpeedC (halves g0) * (1 + Real.sqrt 2)) := by
    intro r g0 e hg0 hr
    obtain ⟨o1, o', h1, h2, -, h4⟩ := rank_rhs cross_conforming rfl (by decide +kernel) hs FV.Geo.cross_nozero (cross_all hs _) hd hmono (air1 (rest 2)) hb hg
      (fun i _ => halves_adm i) (hS r) (hs' r) (hu r)
    obtain ⟨o2, h5, h6⟩ := zero_timestep (hok r).1 (hok r).2 (by show air.g ≠ 1; norm_num [air]) (u := arr r) (fun i hi => by
      rw [hu r i (by have : i < (S r).mesh.nelem := hi; omega)]; exact (halves_adm _).rho') e h2
    obtain ⟨l0, hl0⟩ := List.mem_iff_getElem?.1 (((hspec r).1.cells g0).2 ⟨by omega, hr⟩)
    have hl0n : l0 < (S r).mesh.nelem := (cells_lt cross_conforming rfl (by decide +kernel) hs (hS r) hl0).1
    have hts : ∀ l g : ℕ, (S r).cells[l]? = some g → (D r).timestep o2.uL o2.uR l = 1 / 4 / (air.soundSpeedC (halves g0) * (1 + Real.sqrt 2)) := fun l g hlg => by
      obtain ⟨c0, c1, c2⟩ := cells_lt cross_conforming rfl (by decide +kernel) hs (hS r) hlg
      rw [h6 l c0, h4 l g hlg, halves_timestep hs h1 (by omega)]
      have : halves g = halves g0 := by
        unfold halves
        have c2 : g / 2 = r := c2
        by_cases hlt : g < 2
        · rw [if_pos hlt, if_pos (by omega)]
        · rw [if_neg hlt, if_neg (by omega)]
      rw [this]
    have e2 : (rk2 (D r) .zero .linear e (arr r)).2 = (range (S r).mesh.nelem).inf' ⟨l0, Finset.mem_range.2 hl0n⟩ ((D r).timestep o2.uL o2.uR) := by
      simp only [rk2, h5]
      exact dif_pos (show (range (S r).mesh.nelem).Nonempty from ⟨l0, Finset.mem_range.2 hl0n⟩)
    rw [e2]
    refine le_antisymm ((Finset.inf'_le _ (Finset.mem_range.2 hl0n)).trans (hts l0 g0 hl0).le) (Finset.le_inf' _ _ fun l hl => ?_)
    obtain ⟨g, hlg, -⟩ := (hspec r).1.cell (Finset.mem_range.1 hl)
    exact (hts l g hlg).ge
  have h2 : (0 : ℝ) ≤ Real.sqrt 2 := Real.sqrt_nonneg 2
  have hc2 : 0 < air.soundSpeedC (halves 2) := Disc.soundSpeed_pos (halves_adm 2)
  have hc0 : 0 < air.soundSpeedC (halves 0) := Disc.soundSpeed_pos (halves_adm 0)
  have hlt : 1 / 4 / (air.soundSpeedC (halves 0) * (1 + Real.sqrt 2)) < 1 / 4 / (air.soundSpeedC (halves 2) * (1 + Real.sqrt 2)) := by
    have hc : air.soundSpeedC (halves 2) < air.soundSpeedC (halves 0) := by
      rw [show halves 2 = rest 2 from if_neg (by omega), show halves 0 = rest 1 from if_pos (by omega)]
      exact sound_rest one_pos one_lt_two
    gcongr
  have hp : 0 < 1 / 4 / (air.soundSpeedC (halves 0) * (1 + Real.sqrt 2)) := by positivity
  have hmul := mul_lt_mul_of_pos_right hlt hcfl
  have hp0 := mul_pos hp hcfl
  refine ⟨1 / 4 / (air.soundSpeedC (halves 0) * (1 + Real.sqrt 2)) * cfl + 1e-12, by norm_num; positivity, ?_⟩
  refine C118_unsteady_hangs (r := 1) (q := 0) (fun h => ?_) (by rw [add_sub_cancel_right]; exact hp0.le) (fun r => arr r) ?_ ?_
  · rw [h] at hrows
    rcases hq with rfl | rfl | rfl
    · rw [tvdrk1] at hrows; cases hrows
    · rw [tvdrk2] at hrows; cases hrows
    · rw [tvdrk3] at hrows; cases hrows
  · rw [add_sub_cancel_right]
    refine hmul.trans_le (le_of_eq ?_)
    congr 1
    exact (hdt 1 2 _ (by omega) rfl).symm
  · rw [add_sub_cancel_right]
    refine le_of_eq ?_
    congr 1
    exact hdt 0 0 _ (by omega) rfl

end Par
end FVENS
