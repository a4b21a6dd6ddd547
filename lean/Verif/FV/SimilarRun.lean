import Verif.FV.SimilarRes

/-!
# Runs on a moved, turned and scaled mesh (C94)
-/

namespace FVENS

open Msh FV Flux Par Ode

/-- Settings with turned boundary states and another Reynolds number. -/
def Similarity.settings (T : Similarity) (P : Settings) (re : ℝ) : Settings :=
  { P with gas := withRe P.gas re, bc := fun t => (P.bc t).map T.obj }

/-- C94: what the code computes from the moved mesh file is the moved discretisation: centres, mirrored ghost centres, areas. -/
theorem C94_setup (T : Similarity) {m : Mesh} {s : FState} (hc : Conforming m) (hz : NoZeroFace m) (ht : topological m = .ok s) (P : Settings) {re : ℝ}
    (hre : P.viscous = true → re = P.gas.Reinf / T.L) {ghost ghost' : ℕ → V2} (hg : ∀ ic, ic < m.nconnface → ghost' ic = T.pt (ghost ic)) :
    topological (T.mesh m) = .ok s ∧ Moved T (P.disc m s ghost) ((T.settings P re).disc (T.mesh m) s ghost') := by
  have hok : (P.disc m s ghost).G.Ok := ⟨hc, hz, ht⟩
  have hnn : ∀ i, i < m.nelem → m.nnode i ≠ 0 := fun i hi => by have := hc.lin.three i hi; omega
  refine ⟨by rw [T.topological_mesh]; exact ht, ⟨rfl, rfl, fun i hi => ?_, fun k hk => ?_, fun i hi => ?_, rfl, hre, rfl, rfl, rfl, fun t => rfl, rfl⟩⟩
  · have hi : i < m.nelem + m.nconnface := hi
    show (if i < m.nelem then centre (T.mesh m) i else ghost' (i - m.nelem)) = T.pt (if i < m.nelem then centre m i else ghost (i - m.nelem))
    split_ifs with h
    · exact T.centre_mesh (hnn i h)
    · exact hg _ (by omega)
  · have hk' : k < (P.disc m s ghost).G.nface := by
      have := (C27_ranges hc.lin hc.bfOk ht).1
      have hk : k < m.nbface := hk
      show k < s.faces.length
      omega
    have hl : (faceAt s.faces k).left < m.nelem := (hok.kind hk').1
    show ghostMid (T.pt _) (T.pt _) (centre (T.mesh m) _) = T.pt (ghostMid _ _ (centre m _))
    rw [T.centre_mesh (hnn _ hl)]
    exact T.ghostMid_pt _ _ _
  · show (area (T.mesh m) i).getD 0 = T.L * T.L * (area m i).getD 0
    rw [T.area_mesh]
    cases area m i <;> simp

namespace Par

/-! ### Loops with scaled norms -/

section sim
variable {S S' : Type} {P : Prob S} {P' : Prob S'} {c : Conf}

/-- Two runs of the explicit solver at the same point, with norms in another unit: after the first iteration the stored norms differ by a factor. -/
structure Scaled (κ : ℝ) (R : S → S' → Prop) (m : Mem S) (m' : Mem S') : Prop where
  u : R m.u m'.u
  step : m'.step = m.step
  start : m.step = 0 → m'.resi = m.resi ∧ m'.initres = m.initres
  resi : m.step ≠ 0 → m'.resi = κ * m.resi ∧ m'.initres = κ * m.initres
  same : κ = 1 → m'.resi = m.resi ∧ m'.resiold = m.resiold ∧ m'.cfl = m.cfl ∧ m'.log = m.log

theorem fdiv_scale {κ : ℝ} (hκ : 0 < κ) (a b : ℝ) : fdiv (κ * a) (κ * b) = fdiv a b := by
  unfold fdiv
  simp only [mul_eq_zero, hκ.ne', false_or, mul_div_mul_left _ _ hκ.ne']

theorem Scaled.fdiv {κ : ℝ} (hκ : 0 < κ) {R : S → S' → Prop} {m : Mem S} {m' : Mem S'} (h : Scaled κ R m m') :
    Ode.fdiv m'.resi m'.initres = Ode.fdiv m.resi m.initres := by
  by_cases h0 : m.step = 0
  · rw [(h.start h0).1, (h.start h0).2]
  · rw [(h.resi h0).1, (h.resi h0).2, fdiv_scale hκ]

/-- A run of the explicit solver is followed step by step by another whose norms are a fixed multiple. -/
theorem loop_scaled {κ : ℝ} (hκ : 0 < κ) {R : S → S' → Prop} (hn : ∀ u u', R u u' → P'.norm u' = (P.norm u).map fun r => κ * r)
    (hu : ∀ a u u', R u u' → R (P.upd a u) (P'.upd a u')) {m : Mem S} {n : ℕ} {o : Option (Mem S)}
    (h : Loop (Ode.cond c) (body forwardEuler P c) m n o) : ∀ {m' : Mem S'}, Scaled κ R m m' →
    ∃ o', Loop (Ode.cond c) (body forwardEuler P' c) m' n o' ∧ (o = none → o' = none) ∧ ∀ t, o = some t → ∃ t', o' = some t' ∧ Scaled κ R t t' := by
  have hcond : ∀ {m : Mem S} {m' : Mem S'}, Scaled κ R m m' → (Ode.cond c m' ↔ Ode.cond c m) := fun hs => by
    unfold Ode.cond; rw [hs.fdiv hκ, hs.step]
  induction h with
  | done h1 =>
    intro m' hs
    exact ⟨_, .done (fun h => h1 ((hcond hs).1 h)), fun h => by simp at h, fun t ht => by cases ht; exact ⟨m', rfl, hs⟩⟩
  | @step m m1 n o h1 h2 h3 ih =>
    intro m' hs
    obtain ⟨m1', hb, hs'⟩ : ∃ m1', body forwardEuler P' c m' = some m1' ∧ Scaled κ R m1 m1' := by
      simp only [body] at h2 ⊢
      rw [hn m.u m'.u hs.u]
      cases hr : P.norm m.u with
      | none => rw [hr] at h2; cases h2
      | some r =>
        rw [hr] at h2
        cases h2
        refine ⟨_, rfl, ⟨hu _ _ _ hs.u, by simp only [hs.step], fun h0 => by simp at h0, fun _ => ⟨rfl, ?_⟩, fun h1 => ?_⟩⟩
        · simp only [hs.step]
          split_ifs with h0
          · rfl
          · exact (hs.resi h0).2
        · obtain ⟨s1, s2, s3, s4⟩ := hs.same h1
          simp only [h1, one_mul, s1, s2, s3, s4, and_self]
    obtain ⟨o', l1, l2, l3⟩ := ih hs'
    exact ⟨o', .step ((hcond hs).2 h1) hb l1, l2, l3⟩
  | @throws m h1 h2 =>
    intro m' hs
    refine ⟨none, .throws ((hcond hs).2 h1) ?_, fun _ => rfl, fun t ht => by cases ht⟩
    simp only [body] at h2 ⊢
    rw [hn m.u m'.u hs.u]
    cases hr : P.norm m.u with
    | none => rfl
    | some r => rw [hr] at h2; cases h2

end sim

section run
variable {T : Similarity} {D D' : Disc} (h : Moved T D D') (hok : D.G.Ok) (hn0 : D.G.m.nconnface = 0)
include h hok hn0

/-- C94, one iteration of the explicit steady solver: the norm scales with the area, the new state is the turned new state. -/
theorem C94_iteration {u u' : ℕ → St} (hu : ∀ i, i < D.G.m.nelem → u' i = T.st (u i)) (cfl : ℝ) :
    (single D').norm u' = ((single D).norm u).map (fun r => T.L * T.L * r) ∧
      ∀ i, i < D.G.m.nelem → (single D').upd cfl u' i = T.st ((single D).upd cfl u i) := by
  have hL := T.pos.ne'
  have hrow : ∀ i, i < D.G.rows → u' i = T.st (u i) := fun i hi => hu i (by unfold Geo.rows at hi; omega)
  rcases h.C94_first_order hok hrow (r := 0) (r' := 0) (fun i _ => (scl_zero T).symm) with ⟨e1, e2⟩ | ⟨o, o', e1, e2, -, e4⟩
  · constructor
    · simp only [single, e1, e2, Option.bind_none, Option.map_none]
    · intro i hi
      simp only [single, e1, e2]
      exact hu i hi
  · constructor
    · simp only [single, e1, e2, Option.bind_some]
      have he : energy D' o'.res = (T.L * T.L) ^ 2 * energy D o.res := by
        unfold energy
        rw [h.nelem, Finset.mul_sum]
        refine Finset.sum_congr rfl fun l hl => ?_
        have hl := Finset.mem_range.1 hl
        rw [(e4 l hl).1, h.ar l hl]
        simp only [Similarity.scl, Similarity.st, rotS_3]
        ring
      have hp : 0 < (T.L * T.L) ^ 2 := by have := T.pos; positivity
      unfold rootOf
      rw [he]
      by_cases hs : 0 ≤ energy D o.res
      · rw [if_pos hs, if_pos (mul_nonneg hp.le hs), Real.sqrt_mul hp.le, Real.sqrt_sq (mul_self_nonneg _)]; rfl
      · rw [if_neg hs, if_neg (fun hh => hs (by exact (mul_nonneg_iff_of_pos_left hp).1 hh))]; rfl
    · intro i hi
      simp only [single, e1, e2, euler]
      rw [h.nelem, if_pos hi, if_pos hi, (e4 i hi).1, (e4 i hi).2, h.ar i hi, hu i hi]
      have hc : ∀ x : ℝ, cfl * (T.L * D.timestep o.uL o.uR i) * 1 / (T.L * T.L * D.G.ar i) * (T.L * x) = cfl * D.timestep o.uL o.uR i * 1 / D.G.ar i * x := fun x => by
        rw [show cfl * (T.L * D.timestep o.uL o.uR i) * 1 = T.L * (cfl * D.timestep o.uL o.uR i * 1) by ring, mul_assoc T.L T.L, mul_div_mul_left _ _ hL,
          mul_comm T.L (D.G.ar i), ← div_div, div_mul_eq_mul_div, mul_comm _ (T.L * x), mul_assoc, mul_div_assoc, mul_comm x, mul_div_assoc, mul_div_assoc]
        field_simp
      funext v
      simp only [Similarity.scl, hc]
      generalize cfl * D.timestep o.uL o.uR i * 1 / D.G.ar i = q
      fin_cases v <;> simp [Similarity.st, rotS] <;> ring

/-- C94, whole runs of the explicit steady solver: started from the turned state on the image of the mesh, it ends in the same way after the same number of
iterations; at a normal end the states are the turned states and the norms differ by the square of the scale; without scaling the logged CFL numbers
are the same. -/
theorem C94_run {w w' : ℕ → St} (hw : ∀ i, i < D.G.m.nelem → w' i = T.st (w i)) {c : Conf} {k : ℕ} {out : Ode.Out} (hrun : Solve forwardEuler (single D) c w k out) :
    Solve forwardEuler (single D') c w' k out ∧ (∀ k' out', Solve forwardEuler (single D') c w' k' out' → k' = k ∧ out' = out) ∧
    ∀ m, 0 < k → Loop (Ode.cond c) (body forwardEuler (single D) c) (init forwardEuler c w) k (some m) →
      ∃ m', Loop (Ode.cond c) (body forwardEuler (single D') c) (init forwardEuler c w') k (some m') ∧
        (∀ i, i < D.G.m.nelem → m'.u i = T.st (m.u i)) ∧ m'.resi = T.L * T.L * m.resi ∧ m'.initres = T.L * T.L * m.initres ∧
          (T.L = 1 → m'.log = m.log) := by
  have hκ : 0 < T.L * T.L := mul_pos T.pos T.pos
  have hsim : ∀ {o}, Loop (Ode.cond c) (body forwardEuler (single D) c) (init forwardEuler c w) k o →
      ∃ o', Loop (Ode.cond c) (body forwardEuler (single D') c) (init forwardEuler c w') k o' ∧ (o = none → o' = none) ∧
        ∀ t, o = some t → ∃ t', o' = some t' ∧ Scaled (T.L * T.L) (fun u u' : ℕ → St => ∀ i, i < D.G.m.nelem → u' i = T.st (u i)) t t' := fun hloop =>
    loop_scaled hκ (R := fun u u' : ℕ → St => ∀ i, i < D.G.m.nelem → u' i = T.st (u i)) (fun u u' hR => (C94_iteration h hok hn0 hR 0).1)
      (fun a u u' hR => (C94_iteration h hok hn0 hR a).2) hloop ⟨hw, rfl, fun _ => ⟨rfl, rfl⟩, fun h0 => absurd rfl h0, fun _ => ⟨rfl, rfl, rfl, rfl⟩⟩
  have hsol : Solve forwardEuler (single D') c w' k out := by
    unfold Solve at hrun ⊢
    split_ifs at hrun ⊢ with hmx
    · exact hrun
    · obtain ⟨o, l1, l2⟩ := hrun
      obtain ⟨o', s1, s2, s3⟩ := hsim l1
      refine ⟨o', s1, ?_⟩
      cases o with
      | none => rw [s2 rfl]; exact l2
      | some t =>
        obtain ⟨t', rfl, hs⟩ := s3 t rfl
        rw [l2]
        simp only [forwardEuler, hs.step]
  refine ⟨hsol, fun k' out' h' => ((C56_terminates forwardEuler _ c w').2 k out hsol).2 k' out' h', fun m hk hm => ?_⟩
  obtain ⟨o', s1, -, s3⟩ := hsim hm
  obtain ⟨t', rfl, hs⟩ := s3 m rfl
  have hst : m.step ≠ 0 := by
    have key : ∀ {a : Mem (ℕ → St)} {n : ℕ} {o : Option (Mem (ℕ → St))}, Loop (Ode.cond c) (body forwardEuler (single D) c) a n o → ∀ b, o = some b → b.step = a.step + n := by
      intro a n o hl
      induction hl with
      | done _ => intro b hb; cases hb; rfl
      | @step a a1 n o _ h2 _ ih =>
        intro b hb
        have := ih b hb
        simp only [body] at h2
        cases hr : (single D).norm a.u with
        | none => rw [hr] at h2; cases h2
        | some r => rw [hr] at h2; cases h2; simp only at this; omega
      | throws _ _ => intro b hb; cases hb
    have := key hm m rfl
    simp only [init] at this
    omega
  exact ⟨t', s1, hs.u, (hs.resi hst).1, (hs.resi hst).2, fun h1 => (hs.same (by rw [h1, one_mul])).2.2.2⟩

end run
end Par
end FVENS
