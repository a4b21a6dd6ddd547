import Verif.Par.ChartSys
import Verif.FV.SimilarEx
import Verif.FV.UnitsRun
import Verif.Par.SecondOrder

/-!
# Runs of the implicit solver in another chart (C104)
-/

namespace FVENS

open Msh Flux FV FV.Disc Par Ode

namespace Par

/-! ### Loops with scaled norms and the same CFL numbers -/

section sim
variable {S S' : Type} {k : Kind} {P : Prob S} {P' : Prob S'} {c : Conf}

/-- Two runs at the same point, with norms in units that differ by a factor: the CFL numbers are the same. -/
structure SameCfl (κ : ℝ) (R : S → S' → Prop) (m : Mem S) (m' : Mem S') : Prop where
  u : R m.u m'.u
  step : m'.step = m.step
  cfl : m'.cfl = m.cfl
  log : m'.log = m.log
  start : m.step = 0 → m'.resi = m.resi ∧ m'.initres = m.initres
  resi : m.step ≠ 0 → m'.resi = κ * m.resi ∧ m'.initres = κ * m.initres
  early : m.step ≤ 1 → m'.resiold = m.resiold
  old : 2 ≤ m.step → m'.resiold = κ * m.resiold

theorem SameCfl.fdiv {κ : ℝ} (hκ : 0 < κ) {R : S → S' → Prop} {m : Mem S} {m' : Mem S'} (h : SameCfl κ R m m') :
    Ode.fdiv m'.resi m'.initres = Ode.fdiv m.resi m.initres := by
  by_cases h0 : m.step = 0
  · rw [(h.start h0).1, (h.start h0).2]
  · rw [(h.resi h0).1, (h.resi h0).2, fdiv_scale hκ]

/-- The CFL number of the next iteration does not change if the last norm is multiplied by `κ`. -/
def RampAgrees (k : Kind) (c : Conf) (κ : ℝ) (m : Mem S) : Prop :=
  expRamp c.cflinit c.cflfin m.cfl (m.resiold / (κ * m.resi)) k.up k.down = expRamp c.cflinit c.cflfin m.cfl (m.resiold / m.resi) k.up k.down

theorem loop_same_cfl {κ : ℝ} (hκ : 0 < κ) {R : S → S' → Prop} {good : Mem S → Prop}
    (hn : ∀ m : Mem S, ∀ u', good m → R m.u u' → P'.norm u' = (P.norm m.u).map fun r => κ * r)
    (hu : ∀ m : Mem S, ∀ u', good m → R m.u u' → R (P.upd (nextCfl k c m) m.u) (P'.upd (nextCfl k c m) u'))
    (hc : ∀ m : Mem S, good m → m.step = 1 → RampAgrees k c κ m)
    {m : Mem S} {n : ℕ} {o : Option (Mem S)} (h : Loop (Ode.cond c) (body k P c) m n o) :
    ∀ {m' : Mem S'}, SameCfl κ R m m' → (∀ j, j < n → ∀ t, (fun x : Option (Mem S) => x.bind (body k P c))^[j] (some m) = some t → good t) →
    ∃ o', Loop (Ode.cond c) (body k P' c) m' n o' ∧ (o = none → o' = none) ∧ ∀ t, o = some t → ∃ t', o' = some t' ∧ SameCfl κ R t t' := by
  have hcond : ∀ {m : Mem S} {m' : Mem S'}, SameCfl κ R m m' → (Ode.cond c m' ↔ Ode.cond c m) := fun hs => by
    unfold Ode.cond; rw [hs.fdiv hκ, hs.step]
  induction h with
  | done h1 =>
    intro m' hs _
    exact ⟨_, .done (fun h => h1 ((hcond hs).1 h)), fun h => by simp at h, fun t ht => by cases ht; exact ⟨m', rfl, hs⟩⟩
  | @step m m1 n o h1 h2 h3 ih =>
    intro m' hs hg
    have hgood : good m := hg 0 (by omega) m rfl
    have hcfl : expRamp c.cflinit c.cflfin m'.cfl (m'.resiold / m'.resi) k.up k.down = expRamp c.cflinit c.cflfin m.cfl (m.resiold / m.resi) k.up k.down := by
      rw [hs.cfl]
      rcases Nat.lt_or_ge m.step 2 with h2 | h2
      · rcases Nat.lt_or_ge m.step 1 with h1 | h1
        · rw [hs.early (by omega), (hs.start (by omega)).1]
        · rw [hs.early (by omega), (hs.resi (by omega)).1]
          exact hc m hgood (by omega)
      · rw [hs.old h2, (hs.resi (by omega)).1, mul_div_mul_left _ _ hκ.ne']
    obtain ⟨m1', hb, hs'⟩ : ∃ m1', body k P' c m' = some m1' ∧ SameCfl κ R m1 m1' := by
      simp only [body] at h2 ⊢
      rw [hn m m'.u hgood hs.u]
      cases hr : P.norm m.u with
      | none => rw [hr] at h2; cases h2
      | some r =>
        rw [hr] at h2
        cases h2
        refine ⟨_, rfl, ⟨?_, by simp only [hs.step], hcfl, by simp only [hs.log, hcfl], fun h0 => by simp at h0, fun _ => ⟨rfl, ?_⟩, fun h0 => ?_, fun h0 => ?_⟩⟩
        · simp only [hcfl]
          exact hu m m'.u hgood hs.u
        · simp only [hs.step]
          split_ifs with h0
          · rfl
          · exact (hs.resi h0).2
        · exact (hs.start (by simp only at h0; omega)).1
        · exact (hs.resi (by simp only at h0; omega)).1
    obtain ⟨o', l1, l2, l3⟩ := ih hs' fun j hj t ht => hg (j + 1) (by omega) t (by
      rw [Function.iterate_succ_apply, Option.bind_some, h2]; exact ht)
    exact ⟨o', .step ((hcond hs).2 h1) hb l1, l2, l3⟩
  | @throws m h1 h2 =>
    intro m' hs hg
    have hgood : good m := hg 0 (by omega) m rfl
    refine ⟨none, .throws ((hcond hs).2 h1) ?_, fun _ => rfl, fun t ht => by cases ht⟩
    simp only [body] at h2 ⊢
    rw [hn m m'.u hgood hs.u]
    cases hr : P.norm m.u with
    | none => rfl
    | some r => rw [hr] at h2; cases h2

/-- Limits that leave no choice, or an unchanged unit of the norm. -/
theorem rampAgrees_of {κ : ℝ} (h : κ = 1 ∨ c.cflinit = c.cflfin) (m : Mem S) : RampAgrees k c κ m := by
  unfold RampAgrees
  rcases h with rfl | h
  · rw [one_mul]
  · have hr : ∀ a b c d e : ℝ, expRamp a a b c d e = a := fun a b c d e => by
      unfold expRamp
      dsimp only
      generalize (if c > 1 then b * c ^ d else b * c ^ e) = y
      split_ifs with h1 h2
      · rfl
      · rfl
      · linarith
    rw [h, hr, hr]

end sim
end Par

namespace Charted
variable {χ : Chart} {L : ℝ} {D D' : Disc} (h : Charted χ L D D') {ev ev' : (ℕ → St) → Option Disc.Out}

/-- The residual and the time steps of a state in the new chart, as found by evaluations `ev` and `ev'` of the residual. -/
def ResIm (χ : Chart) (L : ℝ) (D D' : Disc) (ev ev' : (ℕ → St) → Option Disc.Out) (u : ℕ → St) : Prop :=
  ∃ o o', ev u = some o ∧ ev' (fun i => χ.st (u i)) = some o' ∧
    ∀ i, i < D.G.m.nelem → (∀ v, o'.res i v = χ.b * L * χ.st (o.res i) v) ∧ D'.timestep o'.uL o'.uR i = L / χ.b * D.timestep o.uL o.uR i

include h

/-- Norms of residuals are multiplied by the factor of an energy flux times a length. -/
theorem norm_im {u : ℕ → St} (hr : ResIm χ L D D' ev ev' u) : (solver D' ev').norm (fun i => χ.st (u i)) = ((solver D ev).norm u).map fun r => χ.a * χ.b ^ 3 * L ^ 2 * r := by
  obtain ⟨o, o', e1, e2, e3⟩ := hr
  have ha := χ.ha; have hb := χ.hb; have hL := h.pos
  simp only [solver, e1, e2, Option.bind_some]
  have he : energy D' o'.res = (χ.a * χ.b ^ 3 * L ^ 2) ^ 2 * energy D o.res := by
    unfold energy
    rw [h.nelem, Finset.mul_sum]
    refine Finset.sum_congr rfl fun l hl => ?_
    have hl := Finset.mem_range.1 hl
    rw [(e3 l hl).1 3, h.ar l hl, Chart.st_3]
    ring
  have hp : 0 < (χ.a * χ.b ^ 3 * L ^ 2) ^ 2 := by positivity
  unfold rootOf
  rw [he]
  by_cases hs : 0 ≤ energy D o.res
  · rw [if_pos hs, if_pos (mul_nonneg hp.le hs), Real.sqrt_mul hp.le, Real.sqrt_sq (by positivity)]; rfl
  · rw [if_neg hs, if_neg (fun hh => hs (by exact (mul_nonneg_iff_of_pos_left hp).1 hh))]; rfl

variable (hok : D.G.Ok) (hn0 : D.G.m.nconnface = 0) {J J' : St → St → V2 → FJ} (hJ : χ.FamIm D.gas J J') (hb : D.BcJOk) {relax relax' : St → St → ℝ}
  {ksp ksp' : (ℕ × ℕ → Blk (Fin 4)) → (ℕ → St) → ℕ → St} (hk : Exact D.G.m.nelem ksp) (hk' : Exact D.G.m.nelem ksp')
include hok hn0 hJ hb hk hk'

/-- C104, one iteration of the implicit solver: the norm is multiplied by the factor of an energy flux times a length, the new state is the image of the new state. -/
theorem C104_iteration {u : ℕ → St} (hr : ResIm χ L D D' ev ev' u) (hg : GoodAt D u) (hrel : ∀ du i, i < D.G.m.nelem → relax' (χ.st du) (χ.st (u i)) = relax du (u i)) :
    (solverI D' ev' J' relax' ksp').norm (fun i => χ.st (u i)) = ((solverI D ev J relax ksp).norm u).map (fun r => χ.a * χ.b ^ 3 * L ^ 2 * r) ∧
    ∀ cfl, (∀ o, ev u = some o → Regular D.G.m.nelem (sysOne D J u o cfl)) →
      (solverI D' ev' J' relax' ksp').upd cfl (fun i => χ.st (u i)) = fun i => χ.st ((solverI D ev J relax ksp).upd cfl u i) := by
  refine ⟨?_, fun cfl hreg => ?_⟩
  · simp only [solverI]
    rw [if_pos hb, if_pos (h.bcJOk.2 hb)]
    exact h.norm_im hr
  · obtain ⟨o, o', e1, e2, e3⟩ := hr
    have hR := hreg o e1
    have hκ : χ.b * L ≠ 0 := mul_ne_zero χ.hb.ne' h.pos.ne'
    have hsys := χ.C104_system hκ (A := sysOne D J u o cfl) (A' := sysOne D' J' (fun i => χ.st (u i)) o' cfl)
      fun x i hi v => h.C104_matrix hok hn0 hJ hb (fun i _ => rfl) hg (fun i hi => (e3 i hi).2) cfl x hi v
    have hsol := hsys.2 hR o.res o'.res _ _ (fun i hi v => (e3 i hi).1 v) (hk _ o.res hR) (hk' _ o'.res (hsys.1.2 hR))
    funext i
    simp only [solverI, e1, e2, relaxed, h.nelem]
    split_ifs with hi
    · rw [hsol i hi, hrel _ i hi]
      funext v
      rw [Chart.st_plus, Chart.st_mul]
    · rfl

/-- C104, whole runs of the implicit steady solver: started from the image of the state it ends in the same way after the same number of iterations; at a normal end the
states are the images of the states, with the same CFL numbers in every iteration. Residual norms are multiplied by a fixed factor. The CFL number of the second iteration compares
a norm with the number one, and is assumed not to notice that factor. -/
theorem C104_run {w : ℕ → St} {c : Conf} {k : ℕ} {out : Ode.Out} (hrun : Solve backwardEuler (solverI D ev J relax ksp) c w k out)
    (hrel : ∀ du u, Adm D.gas u → relax' (χ.st du) (χ.st u) = relax du u)
    (hgood : ∀ j, j < k → ∀ m, traj backwardEuler (solverI D ev J relax ksp) c w j = some m → ResIm χ L D D' ev ev' m.u ∧ GoodAt D m.u ∧
      ∀ o, ev m.u = some o → Regular D.G.m.nelem (sysOne D J m.u o (nextCfl backwardEuler c m)))
    (hcfl : ∀ m, 1 < k → traj backwardEuler (solverI D ev J relax ksp) c w 1 = some m → RampAgrees backwardEuler c (χ.a * χ.b ^ 3 * L ^ 2) m) :
    Solve backwardEuler (solverI D' ev' J' relax' ksp') c (fun i => χ.st (w i)) k out ∧
    (∀ k' out', Solve backwardEuler (solverI D' ev' J' relax' ksp') c (fun i => χ.st (w i)) k' out' → k' = k ∧ out' = out) ∧
    ∀ m, 0 < k → Loop (Ode.cond c) (body backwardEuler (solverI D ev J relax ksp) c) (init backwardEuler c w) k (some m) →
      ∃ m', Loop (Ode.cond c) (body backwardEuler (solverI D' ev' J' relax' ksp') c) (init backwardEuler c fun i => χ.st (w i)) k (some m') ∧
        (m'.u = fun i => χ.st (m.u i)) ∧ m'.resi = χ.a * χ.b ^ 3 * L ^ 2 * m.resi ∧ m'.initres = χ.a * χ.b ^ 3 * L ^ 2 * m.initres ∧ m'.log = m.log := by
  have hκ : 0 < χ.a * χ.b ^ 3 * L ^ 2 := by have := χ.ha; have := χ.hb; have := h.pos; positivity
  have hstep : ∀ j m, traj backwardEuler (solverI D ev J relax ksp) c w j = some m → m.step = j := by
    intro j
    induction j with
    | zero => intro m hm; cases hm; rfl
    | succ j ih =>
      intro m hm
      simp only [traj] at hm
      cases ht : traj backwardEuler (solverI D ev J relax ksp) c w j with
      | none => rw [ht] at hm; cases hm
      | some t =>
        rw [ht, Option.bind_some] at hm
        simp only [body] at hm
        cases hr : (solverI D ev J relax ksp).norm t.u with
        | none => rw [hr] at hm; cases hm
        | some r => rw [hr] at hm; cases hm; simp only [ih t ht]
  have hsim : ∀ {o}, Loop (Ode.cond c) (body backwardEuler (solverI D ev J relax ksp) c) (init backwardEuler c w) k o →
      ∃ o', Loop (Ode.cond c) (body backwardEuler (solverI D' ev' J' relax' ksp') c) (init backwardEuler c fun i => χ.st (w i)) k o' ∧ (o = none → o' = none) ∧
        ∀ t, o = some t → ∃ t', o' = some t' ∧ SameCfl (χ.a * χ.b ^ 3 * L ^ 2) (fun u u' : ℕ → St => u' = fun i => χ.st (u i)) t t' := fun hloop =>
    loop_same_cfl hκ (R := fun u u' : ℕ → St => u' = fun i => χ.st (u i))
      (good := fun m => (ResIm χ L D D' ev ev' m.u ∧ GoodAt D m.u ∧ ∀ o, ev m.u = some o → Regular D.G.m.nelem (sysOne D J m.u o (nextCfl backwardEuler c m))) ∧
        (m.step = 1 → RampAgrees backwardEuler c (χ.a * χ.b ^ 3 * L ^ 2) m))
      (fun m u' hgd hR => by rw [hR]; exact (h.C104_iteration hok hn0 hJ hb hk hk' hgd.1.1 hgd.1.2.1 fun du i hi => hrel du _ (hgd.1.2.1.cell i hi)).1)
      (fun m u' hgd hR => by rw [hR]; exact (h.C104_iteration hok hn0 hJ hb hk hk' hgd.1.1 hgd.1.2.1 fun du i hi => hrel du _ (hgd.1.2.1.cell i hi)).2 _ hgd.1.2.2)
      (fun m hgd h1 => hgd.2 h1) hloop ⟨rfl, rfl, rfl, rfl, fun _ => ⟨rfl, rfl⟩, fun h0 => absurd rfl h0, fun _ => rfl, fun h2 => by simp [init] at h2⟩
      (fun j hj t ht => by
        rw [← traj_iterate] at ht
        refine ⟨hgood j hj t ht, fun h1 => ?_⟩
        have := hstep j t ht
        obtain rfl : j = 1 := by omega
        exact hcfl t hj ht)
  have hsol : Solve backwardEuler (solverI D' ev' J' relax' ksp') c (fun i => χ.st (w i)) k out := by
    unfold Solve at hrun ⊢
    split_ifs at hrun ⊢ with hmx
    · exact hrun
    · obtain ⟨o, l1, l2⟩ := hrun
      obtain ⟨o', s1, s2, s3⟩ := hsim l1
      refine ⟨o', s1, ?_⟩
      cases o with
      | none => rw [s2 rfl]; exact l2
      | some t =>
        obtain ⟨t', rfl, hs⟩ := s3 t rfl
        rw [l2]
        simp only [backwardEuler]
        rw [hs.step, hs.fdiv hκ]
  refine ⟨hsol, fun k' out' h' => ((C56_terminates backwardEuler _ c _).2 k out hsol).2 k' out' h', fun m hk0 hm => ?_⟩
  obtain ⟨o', s1, -, s3⟩ := hsim hm
  obtain ⟨t', rfl, hs⟩ := s3 m rfl
  have hst : m.step ≠ 0 := by
    have key : ∀ {a : Mem (ℕ → St)} {n : ℕ} {o : Option (Mem (ℕ → St))}, Loop (Ode.cond c) (body backwardEuler (solverI D ev J relax ksp) c) a n o → ∀ b, o = some b → b.step = a.step + n := by
      intro a n o hl
      induction hl with
      | done _ => intro b hb; cases hb; rfl
      | @step a a1 n o _ h2 _ ih =>
        intro b hb
        have := ih b hb
        simp only [body] at h2
        cases hr : (solverI D ev J relax ksp).norm a.u with
        | none => rw [hr] at h2; cases h2
        | some r => rw [hr] at h2; cases h2; simp only at this; omega
      | throws _ _ => intro b hb; cases hb
    have := key hm m rfl
    simp only [init] at this
    omega
  exact ⟨t', s1, hs.u, (hs.resi hst).1, (hs.resi hst).2, hs.log⟩

end Charted
end FVENS
