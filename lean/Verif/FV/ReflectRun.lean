import Verif.FV.ReflectMesh

/-!
# Runs on mirror images and on halves of symmetric meshes (C100)
-/

namespace FVENS

open Msh Finset Flux FV Par Ode

namespace Par
section sim
variable {S S' : Type} {P : Prob S} {P' : Prob S'} {c : Conf}

/-- `loop_scaled` with a condition on the states that the first run visits. -/
theorem loop_scaled_good {κ : ℝ} (hκ : 0 < κ) {R : S → S' → Prop} {good : S → Prop} (hn : ∀ u u', good u → R u u' → P'.norm u' = (P.norm u).map fun r => κ * r)
    (hu : ∀ a u u', good u → R u u' → R (P.upd a u) (P'.upd a u')) {m : Mem S} {n : ℕ} {o : Option (Mem S)}
    (h : Loop (Ode.cond c) (body forwardEuler P c) m n o) : ∀ {m' : Mem S'}, Scaled κ R m m' →
    (∀ j, j < n → ∀ t, (fun x : Option (Mem S) => x.bind (body forwardEuler P c))^[j] (some m) = some t → good t.u) →
    ∃ o', Loop (Ode.cond c) (body forwardEuler P' c) m' n o' ∧ (o = none → o' = none) ∧ ∀ t, o = some t → ∃ t', o' = some t' ∧ Scaled κ R t t' := by
  have hcond : ∀ {m : Mem S} {m' : Mem S'}, Scaled κ R m m' → (Ode.cond c m' ↔ Ode.cond c m) := fun hs => by
    unfold Ode.cond; rw [hs.fdiv hκ, hs.step]
  induction h with
  | done h1 =>
    intro m' hs _
    exact ⟨_, .done (fun h => h1 ((hcond hs).1 h)), fun h => by simp at h, fun t ht => by cases ht; exact ⟨m', rfl, hs⟩⟩
  | @step m m1 n o h1 h2 h3 ih =>
    intro m' hs hg
    have hgood : good m.u := hg 0 (by omega) m rfl
    obtain ⟨m1', hb, hs'⟩ : ∃ m1', body forwardEuler P' c m' = some m1' ∧ Scaled κ R m1 m1' := by
      have h2 := h2
      simp only [body] at h2 ⊢
      rw [hn m.u m'.u hgood hs.u]
      cases hr : P.norm m.u with
      | none => rw [hr] at h2; cases h2
      | some r =>
        rw [hr] at h2
        cases h2
        refine ⟨_, rfl, ⟨hu _ _ _ hgood hs.u, by simp only [hs.step], fun h0 => by simp at h0, fun _ => ⟨rfl, ?_⟩, fun h1 => ?_⟩⟩
        · simp only [hs.step]
          split_ifs with h0
          · rfl
          · exact (hs.resi h0).2
        · obtain ⟨s1, s2, s3, s4⟩ := hs.same h1
          simp only [h1, one_mul, s1, s2, s3, s4, and_self]
    obtain ⟨o', l1, l2, l3⟩ := ih hs' fun j hj t ht => hg (j + 1) (by omega) t (by
      rw [Function.iterate_succ_apply, Option.bind_some, h2]; exact ht)
    exact ⟨o', .step ((hcond hs).2 h1) hb l1, l2, l3⟩
  | @throws m h1 h2 =>
    intro m' hs hg
    have hgood : good m.u := hg 0 (by omega) m rfl
    refine ⟨none, .throws ((hcond hs).2 h1) ?_, fun _ => rfl, fun t ht => by cases ht⟩
    simp only [body] at h2 ⊢
    rw [hn m.u m'.u hgood hs.u]
    cases hr : P.norm m.u with
    | none => rfl
    | some r => rw [hr] at h2; cases h2

theorem loop_steps {m : Mem S} {n : ℕ} {o : Option (Mem S)} (hl : Loop (Ode.cond c) (body forwardEuler P c) m n o) : ∀ b, o = some b → b.step = m.step + n := by
  induction hl with
  | done _ => intro b hb; cases hb; rfl
  | @step a a1 n o _ h2 _ ih =>
    intro b hb
    have := ih b hb
    simp only [body] at h2
    cases hr : P.norm a.u with
    | none => rw [hr] at h2; cases h2
    | some r => rw [hr] at h2; cases h2; simp only at this; omega
  | throws _ _ => intro b hb; cases hb

/-- Whole runs of the explicit solver with norms in another unit. -/
theorem run_scaled {κ : ℝ} (hκ : 0 < κ) {R : S → S' → Prop} {good : S → Prop} (hn : ∀ u u', good u → R u u' → P'.norm u' = (P.norm u).map fun r => κ * r)
    (hu : ∀ a u u', good u → R u u' → R (P.upd a u) (P'.upd a u')) {w : S} {w' : S'} (hw : R w w') {k : ℕ} {out : Ode.Out} (hrun : Solve forwardEuler P c w k out)
    (hgood : ∀ j, j < k → ∀ m, traj forwardEuler P c w j = some m → good m.u) :
    Solve forwardEuler P' c w' k out ∧ (∀ k' out', Solve forwardEuler P' c w' k' out' → k' = k ∧ out' = out) ∧
    ∀ m, Loop (Ode.cond c) (body forwardEuler P c) (init forwardEuler c w) k (some m) →
      ∃ m', Loop (Ode.cond c) (body forwardEuler P' c) (init forwardEuler c w') k (some m') ∧ R m.u m'.u ∧
        (0 < k → m'.resi = κ * m.resi ∧ m'.initres = κ * m.initres) ∧ (κ = 1 → m'.log = m.log) := by
  have hsim : ∀ {o}, Loop (Ode.cond c) (body forwardEuler P c) (init forwardEuler c w) k o →
      ∃ o', Loop (Ode.cond c) (body forwardEuler P' c) (init forwardEuler c w') k o' ∧ (o = none → o' = none) ∧
        ∀ t, o = some t → ∃ t', o' = some t' ∧ Scaled κ R t t' := fun hloop =>
    loop_scaled_good hκ hn hu hloop ⟨hw, rfl, fun _ => ⟨rfl, rfl⟩, fun h0 => absurd rfl h0, fun _ => ⟨rfl, rfl, rfl, rfl⟩⟩
      (fun j hj t ht => hgood j hj t (by rw [traj_iterate]; exact ht))
  have hsol : Solve forwardEuler P' c w' k out := by
    unfold Solve at hrun ⊢
    split_ifs at hrun ⊢ with hmx
    · exact hrun
    · obtain ⟨o, l1, l2⟩ := hrun
      obtain ⟨o', s1, s2, s3⟩ := hsim l1
      refine ⟨o', s1, ?_⟩
      cases o with
      | none => rw [s2 rfl]; exact l2
      | some t =>
        obtain ⟨t', rfl, hs⟩ := s3 t rfl
        rw [l2]
        simp only [forwardEuler, hs.step]
  refine ⟨hsol, fun k' out' h' => ((C56_terminates forwardEuler _ c w').2 k out hsol).2 k' out' h', fun m hm => ?_⟩
  obtain ⟨o', s1, -, s3⟩ := hsim hm
  obtain ⟨t', rfl, hs⟩ := s3 m rfl
  refine ⟨t', s1, hs.u, fun hk => hs.resi ?_, fun h1 => (hs.same h1).2.2.2⟩
  have := loop_steps hm m rfl
  simp only [init] at this
  omega

end sim
end Par

namespace FV
namespace Disc
variable {D D' : Disc} {M : Reflection} {σ ρ τ τ' : ℕ → ℕ} {π : ℕ → ℕ → ℕ}

theorem st_axpy (M : Reflection) (q : ℝ) (a b : St) : (fun v => M.st a v + q * M.st b v) = M.st fun v => a v + q * b v := by
  funext v; fin_cases v <;> simp [Reflection.st, refS] <;> ring

/-- C100: one iteration of the explicit solver on the mirror image. -/
theorem C100_mirrored_update (h : D.G.Ok) (h' : D'.G.Ok) (hm : Mirrored M D D' ρ τ π) (hb : D.BcOk) (hg : 4 ≤ 3 * D.gas.g) {u u' : ℕ → St}
    (hu : ∀ i, i < D'.G.m.nelem → u' i = M.st (u (ρ i))) (hadm : ∀ i, i < D.G.m.nelem → Adm D.gas (u i)) (cfl : ℝ) :
    ∀ i, i < D'.G.m.nelem → (single D').upd cfl u' i = M.st ((single D).upd cfl u (ρ i)) := by
  intro i hi
  obtain ⟨o, o', e1, e2, e3⟩ := C100_mirrored h h' hm hb hu (fun i j hi hj => swapOk_of_adm D hg (hadm i hi) (hadm j hj)) (r := 0) (r' := 0)
    (fun i _ => by funext v; fin_cases v <;> simp [Reflection.st, refS])
  obtain ⟨f1, f2⟩ := e3 i hi
  simp only [single, e1, e2, euler]
  rw [if_pos hi, if_pos (hm.cell i hi), f1, f2, hu i hi, hm.ar i hi, st_axpy]

/-- `D'` covers half of `D`: cell `i` of `D'` is cell `σ i` of `D` with the same nodes. Its boundary faces are boundary faces of `D` with the same condition, or
faces on the axis between a cell and its mirror image, which become slip walls. -/
structure Half (M : Reflection) (D D' : Disc) (σ ρ τ : ℕ → ℕ) : Prop where
  conn' : D'.G.m.nconnface = 0
  cell : ∀ i, i < D'.G.m.nelem → σ i < D.G.m.nelem
  nnode : ∀ i, i < D'.G.m.nelem → D'.G.m.nnode i = D.G.m.nnode (σ i)
  first : ∀ i, i < D'.G.m.nelem → ∀ f, f < D'.G.m.nnode i → nodeA D'.G.m i f = nodeA D.G.m (σ i) f
  last : ∀ i, i < D'.G.m.nelem → ∀ f, f < D'.G.m.nnode i → nodeB D'.G.m i f = nodeB D.G.m (σ i) f
  nbr : ∀ i, i < D'.G.m.nelem → ∀ f, f < D'.G.m.nnode i → ∀ j, Across D'.G.m (i, f) (.cell j) → Across D.G.m (σ i, f) (.cell (σ j))
  bnd : ∀ i, i < D'.G.m.nelem → ∀ f, f < D'.G.m.nnode i → ∀ k, Across D'.G.m (i, f) (.bnd k) →
    (Across D.G.m (σ i, f) (.bnd (τ k)) ∧ D'.bc (D'.tag k) = D.bc (D.tag (τ k))) ∨
    (Across D.G.m (σ i, f) (.cell (ρ (σ i))) ∧ M.pt (nodeA D'.G.m i f) = nodeA D'.G.m i f ∧ M.pt (nodeB D'.G.m i f) = nodeB D'.G.m i f ∧
      D'.bc (D'.tag k) = some .slip)
  gas : D'.gas = D.gas
  scheme : D'.scheme = D.scheme
  inviscid : D.viscous = false
  inviscid' : D'.viscous = false
  ar : ∀ i, i < D'.G.m.nelem → D'.G.ar i = D.G.ar (σ i)

/-- C100, first order, inviscid: in a symmetric state, residuals and time steps of the cells of one half, computed on the whole mesh, are those computed on the half
with slip walls along the axis. -/
theorem C100_half (h : D.G.Ok) (h' : D'.G.Ok) (hh : Half M D D' σ ρ τ) (hb : D.BcOk) {u u' : ℕ → St} (hu : ∀ i, i < D'.G.m.nelem → u' i = u (σ i))
    (hsym : ∀ i, i < D'.G.m.nelem → u (ρ (σ i)) = M.st (u (σ i))) (h0 : ∀ i, i < D'.G.m.nelem → u (σ i) 0 ≠ 0)
    (hsw : ∀ i j, i < D.G.m.nelem → j < D.G.m.nelem → D.SwapOk (u i) (u j)) {r r' : ℕ → St} (hr : ∀ i, i < D'.G.m.nelem → r' i = r (σ i)) :
    ∃ o o', D.residual1 u r = some o ∧ D'.residual1 u' r' = some o' ∧
      ∀ i, i < D'.G.m.nelem → o'.res i = o.res (σ i) ∧ D'.timestep o'.uL o'.uR i = D.timestep o.uL o.uR (σ i) := by
  have hb' : D'.BcOk := fun k hk => by
    obtain ⟨c, f, hc, hf, hx⟩ := bnd_across h'.conf hk
    rcases hh.bnd c hc f hf k hx with ⟨a1, a2⟩ | ⟨-, -, -, a⟩
    · rw [a2]; exact hb _ a1.1
    · rw [a]; rfl
  obtain ⟨o, ho⟩ : ∃ o, D.residual1 u r = some o := ⟨_, by unfold residual1; rw [if_pos hb]⟩
  obtain ⟨o', ho'⟩ : ∃ o', D'.residual1 u' r' = some o' := ⟨_, by unfold residual1; rw [if_pos hb']⟩
  refine ⟨o, o', ho, ho', fun i hi => ?_⟩
  have hn := hh.nnode i hi
  have hσ := hh.cell i hi
  obtain ⟨x', hx'⟩ := Geo.exists_sides h' hi
  obtain ⟨x, hx⟩ := Geo.exists_sides h hσ
  have hsw' : ∀ i j, i < D'.G.m.nelem → j < D'.G.m.nelem → D'.SwapOk (u' i) (u' j) := fun i j hi hj => by
    rw [hu i hi, hu j hj]
    have := hsw _ _ (hh.cell i hi) (hh.cell j hj)
    unfold SwapOk at this ⊢
    rw [hh.scheme, hh.gas]; exact this
  obtain ⟨e1, e2⟩ := first_cell h hh.inviscid hsw ho hσ hx
  obtain ⟨e1', e2'⟩ := first_cell h' hh.inviscid' hsw' ho' hi hx'
  have hseen : ∀ f, f < D'.G.m.nnode i → D'.seen u' i (x' f) = D.seen u (σ i) (x f) := fun f hf => by
    have hf' : f < D.G.m.nnode (σ i) := by rw [← hn]; exact hf
    have hA := hx' f hf
    have hB := hx f hf'
    cases hxf : x' f with
    | conn ic => rw [hxf] at hA; exact absurd hA.1 (by rw [hh.conn']; omega)
    | cell j =>
      rw [hxf] at hA
      rw [← across_unique h hσ hf' (hh.nbr i hi f hf j hA) hB]
      obtain ⟨g, hg⟩ := hA
      exact hu j hg.2.1.1
    | bnd k =>
      rw [hxf] at hA
      rcases hh.bnd i hi f hf k hA with ⟨a1, a2⟩ | ⟨a1, a2, a3, a4⟩
      · rw [← across_unique h hσ hf' a1 hB]
        obtain ⟨b, hbk⟩ := Option.isSome_iff_exists.1 (hb (τ k) a1.1)
        show D'.bstate k (u' i) = D.bstate (τ k) (u (σ i))
        rw [bstate_across h' hi hf hA (a2.trans hbk), bstate_across h hσ hf' a1 hbk, hh.gas, hu i hi, hh.first i hi f hf, hh.last i hi f hf]
      · rw [← across_unique h hσ hf' a1 hB]
        show D'.bstate k (u' i) = u (ρ (σ i))
        rw [bstate_across h' hi hf hA a4, hsym i hi, hu i hi]
        refine BC.C100_slip_ghost M _ (h0 i hi) ?_ (M.dir_fixed a2 a3)
        have hne : nodeA D'.G.m i f ≠ nodeB D'.G.m i f := h'.nz (i, f) ⟨hi, hf⟩
        exact fNrm_unit hne
  constructor
  · rw [e1', e1, hr i hi, hn]
    congr 1
    refine sum_congr rfl fun f hf => ?_
    have hf : f < D'.G.m.nnode i := by rw [hn]; exact mem_range.1 hf
    rw [hseen f hf, hh.scheme, hh.gas, hu i hi, hh.first i hi f hf, hh.last i hi f hf]
  · rw [e2', e2, hh.ar i hi, hn]
    congr 1
    refine sum_congr rfl fun f hf => ?_
    have hf : f < D'.G.m.nnode i := by rw [hn]; exact mem_range.1 hf
    rw [hh.gas, hu i hi, hh.first i hi f hf, hh.last i hi f hf]

/-- `D` is symmetric and cut into the half `D'` and its mirror image. -/
structure Cut (M : Reflection) (D D' : Disc) (σ ρ τ τ' : ℕ → ℕ) (π : ℕ → ℕ → ℕ) : Prop where
  sym : Mirrored M D D ρ τ' π
  half : Half M D D' σ ρ τ
  cover : ∀ c, c < D.G.m.nelem → ∃ i, i < D'.G.m.nelem ∧ (c = σ i ∨ c = ρ (σ i))
  inj : ∀ i j, i < D'.G.m.nelem → j < D'.G.m.nelem → σ i = σ j → i = j
  inj' : ∀ i j, i < D'.G.m.nelem → j < D'.G.m.nelem → ρ (σ i) = ρ (σ j) → i = j
  disj : ∀ i j, i < D'.G.m.nelem → j < D'.G.m.nelem → σ i ≠ ρ (σ j)

theorem Cut.sum (hc : Cut M D D' σ ρ τ τ' π) (g : ℕ → ℝ) : ∑ c ∈ range D.G.m.nelem, g c = ∑ i ∈ range D'.G.m.nelem, (g (σ i) + g (ρ (σ i))) := by
  have he : range D.G.m.nelem = (range D'.G.m.nelem).image σ ∪ (range D'.G.m.nelem).image fun i => ρ (σ i) := by
    ext c
    simp only [mem_range, mem_union, mem_image]
    constructor
    · intro h
      obtain ⟨i, hi, e | e⟩ := hc.cover c h
      · exact Or.inl ⟨i, hi, e.symm⟩
      · exact Or.inr ⟨i, hi, e.symm⟩
    · rintro (⟨i, hi, rfl⟩ | ⟨i, hi, rfl⟩)
      · exact hc.half.cell i hi
      · exact hc.sym.cell _ (hc.half.cell i hi)
  rw [he, sum_union, sum_image, sum_image, ← sum_add_distrib]
  · exact fun i hi j hj e => hc.inj' i j (by simpa using hi) (by simpa using hj) e
  · exact fun i hi j hj e => hc.inj i j (by simpa using hi) (by simpa using hj) e
  · rw [disjoint_left]
    intro c h1 h2
    obtain ⟨i, hi, rfl⟩ := mem_image.1 h1
    obtain ⟨j, hj, e⟩ := mem_image.1 h2
    exact hc.disj i j (mem_range.1 hi) (mem_range.1 hj) e.symm

/-- The state of the whole mesh is symmetric and restricts to that of the half. -/
def Unfolds (M : Reflection) (D D' : Disc) (σ ρ : ℕ → ℕ) (u' u : ℕ → St) : Prop :=
  (∀ i, i < D'.G.m.nelem → u (σ i) = u' i) ∧ ∀ c, c < D.G.m.nelem → u (ρ c) = M.st (u c)

section
variable (h : D.G.Ok) (h' : D'.G.Ok) (hc : Cut M D D' σ ρ τ τ' π) (hb : D.BcOk) (hg : 4 ≤ 3 * D.gas.g)
include h h' hc hb hg

/-- C100, one iteration of the explicit solver: from the state of the half the solver on the half computes the new state of the half; norms differ by the factor `√2`. -/
theorem C100_half_iteration {u u' : ℕ → St} (hu : Unfolds M D D' σ ρ u' u) (hadm : ∀ i, i < D'.G.m.nelem → Adm D.gas (u' i)) (cfl : ℝ) :
    (single D).norm u = ((single D').norm u').map (fun r => Real.sqrt 2 * r) ∧ Unfolds M D D' σ ρ ((single D').upd cfl u') ((single D).upd cfl u) := by
  have hA : ∀ c, c < D.G.m.nelem → Adm D.gas (u c) := fun c hcn => by
    obtain ⟨i, hi, rfl | rfl⟩ := hc.cover c hcn
    · rw [hu.1 i hi]; exact hadm i hi
    · rw [hu.2 _ (hc.half.cell i hi), hu.1 i hi]; exact M.adm_st (hadm i hi)
  have hsw : ∀ i j, i < D.G.m.nelem → j < D.G.m.nelem → D.SwapOk (u i) (u j) := fun i j hi hj => swapOk_of_adm D hg (hA i hi) (hA j hj)
  obtain ⟨o, o', e1, e2, e3⟩ := C100_half h h' hc.half hb (u := u) (u' := u') (fun i hi => (hu.1 i hi).symm) (fun i hi => hu.2 _ (hc.half.cell i hi))
    (fun i hi => (hA _ (hc.half.cell i hi)).rho') hsw (r := 0) (r' := 0) (fun _ _ => rfl)
  have hself : ∀ c, c < D.G.m.nelem → u c = M.st (u (ρ c)) := fun c hcn => by rw [hu.2 c hcn, M.st_st]
  obtain ⟨p, p', f1, f2, f3⟩ := C100_mirrored h h hc.sym hb hself hsw (r := 0) (r' := 0) (fun i _ => by funext v; fin_cases v <;> simp [Reflection.st, refS])
  rw [e1] at f1 f2; cases f1; cases f2
  constructor
  · simp only [single, e1, e2, Option.bind_some]
    have he : energy D o.res = 2 * energy D' o'.res := by
      unfold energy
      rw [hc.sum, mul_sum]
      refine sum_congr rfl fun i hi => ?_
      have hi := mem_range.1 hi
      have hσ := hc.half.cell i hi
      obtain ⟨g1, -⟩ := f3 _ hσ
      rw [(e3 i hi).1, hc.half.ar i hi, ← hc.sym.ar _ hσ, g1]
      simp only [Reflection.st, refS_3]
      ring
    unfold rootOf
    rw [he]
    by_cases hs : 0 ≤ energy D' o'.res
    · rw [if_pos hs, if_pos (by linarith), Real.sqrt_mul (by norm_num)]; rfl
    · rw [if_neg hs, if_neg (by linarith)]; rfl
  · constructor
    · intro i hi
      simp only [single, e1, e2, euler]
      obtain ⟨g1, g2⟩ := e3 i hi
      rw [if_pos hi, if_pos (hc.half.cell i hi), g1, g2, hc.half.ar i hi, hu.1 i hi]
    · intro c hcn
      have := C100_mirrored_update h h hc.sym hb hg hself hA cfl c hcn
      rw [this, M.st_st]

/-- C100, whole runs of the explicit steady solver (first order, inviscid): a run on the half with slip walls along the axis and the run on the whole symmetric mesh,
started from the symmetric state, end in the same way after the same number of iterations; at a normal end the whole state is symmetric and restricts to the state of the
half; norms differ by the factor `√2`. -/
theorem C100_half_run {w w' : ℕ → St} (hw : Unfolds M D D' σ ρ w' w) {c : Conf} {k : ℕ} {out : Ode.Out} (hrun : Solve forwardEuler (single D') c w' k out)
    (hadm : ∀ j, j < k → ∀ m, traj forwardEuler (single D') c w' j = some m → ∀ i, i < D'.G.m.nelem → Adm D.gas (m.u i)) :
    Solve forwardEuler (single D) c w k out ∧ (∀ k' out', Solve forwardEuler (single D) c w k' out' → k' = k ∧ out' = out) ∧
    ∀ m, Loop (Ode.cond c) (body forwardEuler (single D') c) (init forwardEuler c w') k (some m) →
      ∃ m', Loop (Ode.cond c) (body forwardEuler (single D) c) (init forwardEuler c w) k (some m') ∧ Unfolds M D D' σ ρ m.u m'.u ∧
        (0 < k → m'.resi = Real.sqrt 2 * m.resi ∧ m'.initres = Real.sqrt 2 * m.initres) := by
  obtain ⟨h1, h2, h3⟩ := run_scaled (P := single D') (P' := single D) (Real.sqrt_pos.2 (by norm_num : (0 : ℝ) < 2)) (R := Unfolds M D D' σ ρ)
    (good := fun u => ∀ i, i < D'.G.m.nelem → Adm D.gas (u i)) (fun u' u hgd hR => (C100_half_iteration h h' hc hb hg hR hgd 0).1)
    (fun a u' u hgd hR => (C100_half_iteration h h' hc hb hg hR hgd a).2) hw hrun hadm
  exact ⟨h1, h2, fun m hm => by obtain ⟨m', a, b, c, -⟩ := h3 m hm; exact ⟨m', a, b, c⟩⟩

end
end Disc
end FV

namespace Reflection

/-- C100, whole runs on the mirror image of a mesh: same end, same number of iterations, mirrored states, same norms and CFL numbers. -/
theorem C100_mirror_run (M : Reflection) {m : Mesh} {s : FState} {P : Settings} (hc : Conforming m) (hn : m.nconnface = 0) (hz : NoZeroFace m) (ht : topological m = .ok s)
    (hv : P.viscous = false) (hb : (P.disc m s 0).BcOk) (hg : 4 ≤ 3 * P.gas.g) {w : ℕ → St} {c : Conf} {k : ℕ} {out : Ode.Out}
    (hrun : Solve forwardEuler (single (P.disc m s 0)) c w k out)
    (hadm : ∀ j, j < k → ∀ t, traj forwardEuler (single (P.disc m s 0)) c w j = some t → ∀ i, i < m.nelem → Adm P.gas (t.u i)) :
    ∃ s', topological (M.mesh m) = .ok s' ∧ Solve forwardEuler (single ((M.settings P).disc (M.mesh m) s' 0)) c (fun i => M.st (w i)) k out ∧
    (∀ k' out', Solve forwardEuler (single ((M.settings P).disc (M.mesh m) s' 0)) c (fun i => M.st (w i)) k' out' → k' = k ∧ out' = out) ∧
    ∀ t, Loop (Ode.cond c) (body forwardEuler (single (P.disc m s 0)) c) (init forwardEuler c w) k (some t) →
      ∃ t', Loop (Ode.cond c) (body forwardEuler (single ((M.settings P).disc (M.mesh m) s' 0)) c) (init forwardEuler c fun i => M.st (w i)) k (some t') ∧
        (∀ i, i < m.nelem → t'.u i = M.st (t.u i)) ∧ (0 < k → t'.resi = t.resi ∧ t'.initres = t.initres) ∧ t'.log = t.log := by
  obtain ⟨s', hs', hok', hm⟩ := M.C100_setup (P := P) hc hn hz ht hv
  have hok : (P.disc m s 0).G.Ok := ⟨hc, hz, ht⟩
  set D := P.disc m s 0 with hD
  set D' := (M.settings P).disc (M.mesh m) s' 0 with hD'
  have hnorm : ∀ u u' : ℕ → St, (∀ i, i < m.nelem → Adm P.gas (u i)) → (∀ i, i < m.nelem → u' i = M.st (u i)) →
      (single D').norm u' = ((single D).norm u).map fun r => 1 * r := by
    intro u u' hA hu
    obtain ⟨o, o', e1, e2, e3⟩ := Disc.C100_mirrored hok hok' hm hb hu (fun i j hi hj => Disc.swapOk_of_adm D hg (hA i hi) (hA j hj)) (r := 0) (r' := 0)
      (fun i _ => by funext v; fin_cases v <;> simp [Reflection.st, refS])
    simp only [single, e1, e2, Option.bind_some, one_mul, Option.map_id']
    congr 1
    unfold energy
    refine sum_congr rfl fun i hi => ?_
    have hi : i < m.nelem := mem_range.1 hi
    rw [(e3 i hi).1, hm.ar i hi]
    rfl
  obtain ⟨h1, h2, h3⟩ := run_scaled (P := single D) (P' := single D') one_pos (R := fun u u' : ℕ → St => ∀ i, i < m.nelem → u' i = M.st (u i))
    (good := fun u => ∀ i, i < m.nelem → Adm P.gas (u i)) hnorm
    (fun a u u' hgd hR i hi => Disc.C100_mirrored_update hok hok' hm hb hg hR hgd a i hi) (w' := fun i => M.st (w i)) (fun _ _ => rfl) hrun hadm
  refine ⟨s', hs', h1, h2, fun t hl => ?_⟩
  obtain ⟨t', a, b, e, f⟩ := h3 t hl
  exact ⟨t', a, b, fun hk => by simpa using e hk, f rfl⟩

end Reflection
end FVENS
