import Verif.Par.Explicit
import Verif.FV.Closed
import Verif.Flux.Positive

/-!
# Positive density and pressure under explicit steps (C93)

`SteadyForwardEulerSolver` (src/ode/aodesolver.cpp:135-282) with the first-order inviscid discretisation and its own local time steps
(src/spatial/flow_spatial.cpp:565-634).
-/

namespace FVENS
namespace Par

open Msh FV Flux Ode
open Finset (range)

/-! ### Specification -/

/-- Schemes for which cells are kept positive under a bound on the CFL number. -/
def Monotone : Scheme → Prop
  | .llf | .vanLeer | .hll | .hllc => True
  | _ => False

/-- Rate at which a scheme takes the near state `a` away through a face with normal `n` and far state `b`. -/
noncomputable def outRate (G : Gas) : Scheme → St → St → V2 → ℝ
  | .llf => fun a b n => 1 / 2 * max (|Gas.varsVn a n| + cSide G a) (|Gas.varsVn b n| + cSide G b)
  | .vanLeer => fun a _ n => max 0 (cSide G a - Gas.varsVn a n)
  | _ => fun a b n => max 0 (- slOf G a b n)

/-- Physical boundaries whose ghost state is positive whenever the inside state is. -/
def SafeBc (G : Gas) : BC.Obj → Prop
  | .slip | .extrapolation => True
  | .farfield c => Adm G c
  | .inOut c => Adm G c ∧ 0 < G.Minf
  | .adiabatic tv => tv = 0
  | _ => False

/-- Part of the physical flux of the near state. -/
noncomputable def nearPart : Scheme → ℝ
  | .llf => 1 / 2
  | _ => 1

/-! ### One face -/

theorem splits_of (G : Gas) (hg : 4 ≤ 3 * G.g) (h3 : G.g ≤ 3) {sch : Scheme} (hm : Monotone sch) {a b : St} (ha : Adm G a) (hb : Adm G b) {n : V2}
    (hn : n 0 * n 0 + n 1 * n 1 = 1) : Splits G (sch.flux G a b n) (nearPart sch) (outRate G sch a b n) a n := by
  cases sch with
  | llf => exact llf_splits ha hb hn
  | vanLeer => exact vanLeer_splits h3 ha hb hn
  | hll => exact hll_splits ha hb hn
  | hllc => exact hllc_splits hg ha hb hn
  | ausm => exact hm.elim
  | ausmPlus => exact hm.elim
  | roe => exact hm.elim

theorem safe_adm {G : Gas} {o : BC.Obj} (h : SafeBc G o) {u : St} (hu : Adm G u) {n : V2} (hn : n 0 * n 0 + n 1 * n 1 = 1) : Adm G (o.ghost G u n) := by
  cases o with
  | slip => exact slip_adm hn hu
  | extrapolation => exact hu
  | farfield c => exact h
  | adiabatic tv =>
    obtain rfl : tv = 0 := h
    rw [show (BC.Obj.adiabatic 0).ghost G u n = rotS (-1) 0 u from Disc.adiabatic_rest u n]
    exact Disc.adm_rest hu
  | inOut c =>
    obtain ⟨hc, hM⟩ := h
    change Adm G (BC.inOut G c u n)
    have hcs : 0 < G.soundSpeedC u := Real.sqrt_pos.mpr (div_pos (mul_pos (by linarith [hu.g1]) hu.p) hu.rho)
    rcases le_or_gt (dot (mom u) n) 0 with h0 | h0
    · rw [BC.C12_inflow G c u n hu.rho h0]; exact hc
    · rcases lt_or_ge (dot (mom u) n / u 0) (G.soundSpeedC u) with h1 | h1
      · obtain ⟨e1, e2, e3⟩ := BC.C12_subsonic_outflow G c u n hu.g1 hu.rho hu.p h0 h1
        refine ⟨hu.g1, by rw [e1]; exact hu.rho, ?_⟩
        rw [e3]
        have : 0 < G.g := by linarith [hu.g1]
        positivity
      · rw [BC.C12_supersonic_outflow G c u n (by linarith [hu.g1]) hu.rho hu.p h1]; exact hu
  | inflow a b => exact h.elim
  | isothermal a b => exact h.elim

/-- Physical fluxes of one state through a closed polygon cancel. -/
theorem euler_closed {G : Gas} {u : St} {N : ℕ} {t : ℕ → ℝ} {n : ℕ → V2} (h : ∀ d, ∑ f ∈ range N, t f * n f d = 0) :
    ∑ f ∈ range N, t f • G.eulerFlux u (n f) = 0 := by
  have h0 := h 0
  have h1 := h 1
  have key : ∀ A B : ℝ, ∑ f ∈ range N, t f * (A * n f 0 + B * n f 1) = 0 := by
    intro A B
    have : ∀ f, t f * (A * n f 0 + B * n f 1) = A * (t f * n f 0) + B * (t f * n f 1) := fun f => by ring
    simp only [this, Finset.sum_add_distrib, ← Finset.mul_sum, h0, h1]
    ring
  funext i
  rw [Finset.sum_apply]
  simp only [Pi.smul_apply, smul_eq_mul, Pi.zero_apply, Gas.eulerFlux]
  generalize G.pressureOfInternal (u 3 - 1 / 2 * dot (mom u) (mom u) / u 0) = q
  fin_cases i
  · rw [← key (u 1 / u 0 * u 0) (u 2 / u 0 * u 0)]
    refine Finset.sum_congr rfl fun f _ => ?_
    simp [Gas.dirFlux, dot, mom]; left; ring
  · rw [← key (u 1 / u 0 * u 1 + q) (u 2 / u 0 * u 1)]
    refine Finset.sum_congr rfl fun f _ => ?_
    simp [Gas.dirFlux, dot, mom]; left; ring
  · rw [← key (u 1 / u 0 * u 2) (u 2 / u 0 * u 2 + q)]
    refine Finset.sum_congr rfl fun f _ => ?_
    simp [Gas.dirFlux, dot, mom]; left; ring
  · rw [← key (u 1 / u 0 * (u 3 + q)) (u 2 / u 0 * (u 3 + q))]
    refine Finset.sum_congr rfl fun f _ => ?_
    simp [Gas.dirFlux, dot, mom]; left; ring

/-- Outward normals of a cell, weighted with the lengths, add up to zero. -/
theorem sides_closed {G : Geo} (h : G.Ok) {i : ℕ} (hi : i < G.m.nelem) (d : Fin 2) :
    ∑ f ∈ range (G.m.nnode i), fLen (nodeA G.m i f) (nodeB G.m i f) * fNrm (nodeA G.m i f) (nodeB G.m i f) d = 0 := by
  obtain ⟨o, ho⟩ := Geo.exists_sides h hi
  rw [← Geo.closed_touch h hi d]
  symm
  refine sum_sides h hi ho fun f hf k hk hs => ?_
  unfold Geo.sgn Geo.len Geo.nrm
  rcases hs.left_or with ⟨hl, hn0, hn1⟩ | ⟨⟨j, -, hl, hj⟩, -, -, hn1, hn0⟩
  · rw [if_pos hl, hn0, hn1, one_mul]; rfl
  · rw [if_neg (by rw [hl]; exact hj), hn0, hn1]
    change -1 * (fLen (nodeB G.m i f) (nodeA G.m i f) * fNrm (nodeB G.m i f) (nodeA G.m i f) d) = _
    rw [(C22_opposite _ _).1, (C22_opposite _ _).2]
    ring

/-! ### One cell -/

/-- A sum of cone states, weighted with non-negative numbers, some of them positive on states that are not zero. -/
theorem cone_sum {N : ℕ} {t : ℕ → ℝ} {w : ℕ → St} (ht : ∀ f, f < N → 0 ≤ t f) (hw : ∀ f, f < N → Cone (w f)) : Cone (∑ f ∈ range N, t f • w f) := by
  induction N with
  | zero => exact Or.inl (by simp)
  | succ N ih =>
    rw [Finset.sum_range_succ]
    exact (ih (fun f hf => ht f (by omega)) (fun f hf => hw f (by omega))).add ((hw N (by omega)).smul (ht N (by omega)))

/-- Explicit update of one state by fluxes through a closed polygon. -/
theorem update_pos {G : Gas} {u : St} (hu : Adm G u) {N : ℕ} {t a : ℕ → ℝ} {n : ℕ → V2} {F : ℕ → St} {b x : ℝ} (ht : ∀ f, f < N → 0 < t f)
    (hcl : ∀ d, ∑ f ∈ range N, t f * n f d = 0) (hF : ∀ f, f < N → Splits G (F f) b (a f) u (n f)) (hx : 0 ≤ x)
    (hb : x * ∑ f ∈ range N, t f * a f ≤ 1) : Adm G (u - x • ∑ f ∈ range N, t f • F f) := by
  have hc : ∀ f, ∃ w, f < N → (a f = 0 ∧ w = 0 ∨ Pos w) ∧ F f = b • G.eulerFlux u (n f) + a f • u - w := by
    intro f
    by_cases hf : f < N
    · obtain ⟨-, w, h1, h2⟩ := hF f hf
      exact ⟨w, fun _ => ⟨h1, h2⟩⟩
    · exact ⟨0, fun h => absurd h hf⟩
  choose w hw using hc
  have hcone : ∀ f, f < N → Cone (w f) := fun f hf => by
    rcases (hw f hf).1 with ⟨-, h⟩ | h
    · exact Or.inl h
    · exact Or.inr h
  have e : u - x • ∑ f ∈ range N, t f • F f = (1 - x * ∑ f ∈ range N, t f * a f) • u + x • ∑ f ∈ range N, t f • w f := by
    have h1 : ∑ f ∈ range N, t f • F f = b • ∑ f ∈ range N, t f • G.eulerFlux u (n f) + (∑ f ∈ range N, t f * a f) • u - ∑ f ∈ range N, t f • w f := by
      rw [Finset.smul_sum, Finset.sum_smul, ← Finset.sum_add_distrib, ← Finset.sum_sub_distrib]
      refine Finset.sum_congr rfl fun f hf => ?_
      rw [(hw f (Finset.mem_range.1 hf)).2]
      module
    rw [h1, euler_closed hcl]
    module
  rw [e]
  refine adm_iff.2 ⟨hu.g1, ?_⟩
  have hu' := (adm_iff.1 hu).2
  have hsum := cone_sum (fun f hf => (ht f hf).le) hcone
  rcases hb.lt_or_eq with hlt | heq
  · exact (hu'.smul (by linarith)).add_cone (hsum.smul hx)
  · rw [heq, sub_self, zero_smul, zero_add]
    have hx0 : 0 < x := by
      rcases hx.eq_or_lt with e | e
      · rw [← e] at heq; simp at heq
      · exact e
    obtain ⟨f, hf, hne⟩ : ∃ f ∈ range N, t f * a f ≠ 0 := by
      by_contra hh
      push Not at hh
      rw [Finset.sum_eq_zero hh] at heq; simp at heq
    have hfN := Finset.mem_range.1 hf
    have hp : Pos (w f) := by
      rcases (hw f hfN).1 with ⟨h, -⟩ | h
      · rw [h] at hne; simp at hne
      · exact h
    refine Pos.smul ?_ hx0
    rw [← Finset.add_sum_erase _ _ hf]
    refine (hp.smul (ht f hfN)).add_cone ?_
    have : ∀ s : Finset ℕ, (∀ g ∈ s, g < N) → Cone (∑ g ∈ s, t g • w g) := by
      intro s
      induction s using Finset.induction_on with
      | empty => intro _; exact Or.inl (by simp)
      | insert g s hg ih =>
        intro hs
        rw [Finset.sum_insert hg]
        exact ((hcone g (hs g (Finset.mem_insert_self _ _))).smul (ht g (hs g (Finset.mem_insert_self _ _))).le).add
          (ih fun k hk => hs k (Finset.mem_insert_of_mem hk))
    exact this _ fun g hg => Finset.mem_range.1 (Finset.mem_of_mem_erase hg)

section step
variable {D : Disc}

/-- Ghost states of the physical boundaries, as the residual computes them from the inside states. -/
noncomputable def ghosts (D : Disc) (u : ℕ → St) : ℕ → St := fun k => D.bstate k (u (D.G.face k).left)

/-- The explicit update of a cell in terms of its own faces: `cfl` over the sum of the cell's wave speeds, times the sum of the fluxes out of the cell. -/
theorem euler_cell (h : D.G.Ok) (hV : D.viscous = false) (hg : 4 ≤ 3 * D.gas.g) (hb : D.BcOk) {u : ℕ → St}
    (hu : ∀ j, j < D.G.rows → Adm D.gas (u j)) (hgh : ∀ k, k < D.G.m.nbface → Adm D.gas (ghosts D u k)) {i : ℕ} (hi : i < D.G.m.nelem) (har : D.G.ar i ≠ 0)
    {o : ℕ → Other} (ho : ∀ f, f < D.G.m.nnode i → Across D.G.m (i, f) (o f)) (cfl : ℝ) :
    (∀ f, f < D.G.m.nnode i → Adm D.gas ((o f).val D.G.m u (ghosts D u))) ∧
    ∃ r, D.residual1 u 0 = some r ∧ euler D cfl r r.res u i = u i - (cfl / ∑ f ∈ range (D.G.m.nnode i), fLen (nodeA D.G.m i f) (nodeB D.G.m i f) *
        (|Gas.varsVn (u i) (fNrm (nodeA D.G.m i f) (nodeB D.G.m i f))| + cSide D.gas (u i))) •
      ∑ f ∈ range (D.G.m.nnode i), fLen (nodeA D.G.m i f) (nodeB D.G.m i f) •
        D.scheme.flux D.gas (u i) ((o f).val D.G.m u (ghosts D u)) (fNrm (nodeA D.G.m i f) (nodeB D.G.m i f)) := by
  have hrow : D.G.rows = D.G.m.nelem + D.G.m.nconnface := rfl
  have hui := hu i (by omega)
  have hr : D.residual1 u 0 = some ⟨fun k => u (D.G.face k).left, fun k => if k < D.G.m.nbface then D.bstate k (u (D.G.face k).left) else u (D.G.face k).right,
      D.fluxes false u 0 (fun k => u (D.G.face k).left) (fun k => if k < D.G.m.nbface then D.bstate k (u (D.G.face k).left) else u (D.G.face k).right)
        (fun k => if k < D.G.m.nbface then D.bstate k (u (D.G.face k).left) else u (D.G.face k).right) 0⟩ := by
    unfold Disc.residual1; rw [if_pos hb]
  set uL : ℕ → St := fun k => u (D.G.face k).left with huL
  set uR : ℕ → St := fun k => if k < D.G.m.nbface then D.bstate k (u (D.G.face k).left) else u (D.G.face k).right with huR
  set T : ℕ → ℝ := fun f => fLen (nodeA D.G.m i f) (nodeB D.G.m i f) with hT
  set N : ℕ → V2 := fun f => fNrm (nodeA D.G.m i f) (nodeB D.G.m i f) with hN
  set X : ℕ → St := fun f => (o f).val D.G.m u (ghosts D u) with hX
  have hside : ∀ f, f < D.G.m.nnode i → ∀ k, k < D.G.nface → Side D.G i f (o f) k →
      ((D.G.face k).left = i → uL k = u i ∧ uR k = X f) ∧ ((D.G.face k).left ≠ i → uR k = u i ∧ uL k = X f) := by
    intro f hf k hk hs
    refine ⟨fun hl => ⟨by rw [huL]; simp only; rw [hl], ?_⟩, fun hl => ?_⟩
    · exact hs.right_val hl u (ghosts D u)
    · rcases hs.left_or with ⟨hl', -⟩ | ⟨⟨j, hoj, hlj, -⟩, hri, hin, -⟩
      · exact absurd hl' hl
      · refine ⟨?_, ?_⟩
        · rw [huR]; simp only; rw [if_neg (by have := hin.1; omega), hri]
        · rw [huL, hX]; simp only; rw [hoj, hlj]; rfl
  have hXadm : ∀ f, f < D.G.m.nnode i → Adm D.gas (X f) := by
    intro f hf
    obtain ⟨k, hk, -, hs⟩ := side_exists h ⟨hi, hf⟩ (ho f hf)
    obtain ⟨k1, k2, k3, k4, k5⟩ := h.kind hk
    obtain ⟨s1, s2⟩ := hside f hf k hk hs
    by_cases hl : (D.G.face k).left = i
    · rw [← (s1 hl).2, huR]
      simp only
      split_ifs with hkb
      · exact hgh k hkb
      · exact hu _ (k5 (by omega))
    · rw [← (s2 hl).2]
      exact hu _ (by have := k1; omega)
  refine ⟨hXadm, _, hr, ?_⟩
  have hflux := Disc.fluxes_cell (D := D) h (second := false) (u := u) (g := 0) (uL := uL) (uR := uR) (ug := uR) hi ho (fo := fun _ => u i) (fx := X) hside
    (fun f hf k hk hin hs hl => by
      obtain ⟨e1, e2⟩ := (hside f hf k hk hs).2 hl
      rw [e1, e2]
      exact Disc.swapOk_of_adm D hg hui (hXadm f hf)) 0
  have hres : D.fluxes false u 0 uL uR uR 0 i = - ∑ f ∈ range (D.G.m.nnode i), T f • D.scheme.flux D.gas (u i) (X f) (N f) := by
    rw [hflux, Pi.zero_apply, zero_sub]
    congr 1
    refine Finset.sum_congr rfl fun f _ => ?_
    funext v
    simp only [Disc.sideFlux, hV, Pi.smul_apply, smul_eq_mul]
    simp only [Bool.false_eq_true, if_false, add_zero]
    ring
  have hint : D.integ uL uR i = ∑ f ∈ range (D.G.m.nnode i), T f * (|Gas.varsVn (u i) (N f)| + cSide D.gas (u i)) := by
    rw [Disc.integ_cell h hi ho (fo := fun _ => u i) (fun f hf k hk hs => ⟨fun hl => ((hside f hf k hk hs).1 hl).1, fun hl => ((hside f hf k hk hs).2 hl).1⟩)]
    refine Finset.sum_congr rfl fun f _ => ?_
    simp only [Disc.sideSpec, hV, Bool.false_eq_true, if_false, add_zero]
    rw [(C01_vars_agree D.gas (u i) (N f) hui.rho').2.2, cSide, varsP_eq hui.rho']
    change _ * T f = _
    rw [mul_comm]
    rfl
  have hT0 : ∀ f, f < D.G.m.nnode i → 0 < T f := fun f hf => fLen_pos (h.nz (i, f) ⟨hi, hf⟩)
  have hIpos : 0 < D.integ uL uR i := by
    rw [hint]
    refine Finset.sum_pos (fun f hf => mul_pos (hT0 f (Finset.mem_range.1 hf)) (add_pos_of_nonneg_of_pos (abs_nonneg _) hui.c_pos)) ?_
    have := h.conf.lin.three i hi
    exact ⟨0, Finset.mem_range.2 (by omega)⟩
  rw [← hint]
  funext v
  unfold euler
  rw [if_pos hi]
  simp only []
  rw [hres]
  simp only [Disc.timestep, Pi.neg_apply, Pi.sub_apply, Pi.smul_apply, smul_eq_mul]
  have := hIpos.ne'
  field_simp
  ring

/-- C93: one explicit step keeps density and pressure of a cell positive for local Lax-Friedrichs, van Leer, HLL and HLLC, if all states around are admissible and the CFL
number times the sum of the rates at which the faces take the state away does not exceed the sum of the wave speeds the time step is computed from. Missing for the
full claim: AUSM, AUSM+ and Roe, and CFL numbers up to 1 without this condition, for which it fails (`C93_cfl_one_refuted`). -/
theorem C93_step_partial (h : D.G.Ok) (hV : D.viscous = false) (hg : 4 ≤ 3 * D.gas.g) (h3 : D.gas.g ≤ 3) (hm : Monotone D.scheme) (hb : D.BcOk) {u : ℕ → St}
    (hu : ∀ j, j < D.G.rows → Adm D.gas (u j)) (hgh : ∀ k, k < D.G.m.nbface → Adm D.gas (ghosts D u k)) {i : ℕ} (hi : i < D.G.m.nelem) (har : 0 < D.G.ar i)
    {o : ℕ → Other} (ho : ∀ f, f < D.G.m.nnode i → Across D.G.m (i, f) (o f)) {cfl : ℝ} (hc0 : 0 ≤ cfl)
    (hcfl : cfl * ∑ f ∈ range (D.G.m.nnode i), fLen (nodeA D.G.m i f) (nodeB D.G.m i f) *
        outRate D.gas D.scheme (u i) ((o f).val D.G.m u (ghosts D u)) (fNrm (nodeA D.G.m i f) (nodeB D.G.m i f)) ≤
      ∑ f ∈ range (D.G.m.nnode i), fLen (nodeA D.G.m i f) (nodeB D.G.m i f) *
        (|Gas.varsVn (u i) (fNrm (nodeA D.G.m i f) (nodeB D.G.m i f))| + cSide D.gas (u i))) :
    ∃ r, D.residual1 u 0 = some r ∧ Adm D.gas (euler D cfl r r.res u i) := by
  have hui := hu i (by unfold Geo.rows; omega)
  obtain ⟨hX, r, hr, e⟩ := euler_cell h hV hg hb hu hgh hi har.ne' ho cfl
  refine ⟨r, hr, ?_⟩
  rw [e]
  have hT0 : ∀ f, f < D.G.m.nnode i → 0 < fLen (nodeA D.G.m i f) (nodeB D.G.m i f) := fun f hf => fLen_pos (h.nz (i, f) ⟨hi, hf⟩)
  have hIpos : 0 < ∑ f ∈ range (D.G.m.nnode i), fLen (nodeA D.G.m i f) (nodeB D.G.m i f) *
      (|Gas.varsVn (u i) (fNrm (nodeA D.G.m i f) (nodeB D.G.m i f))| + cSide D.gas (u i)) := by
    refine Finset.sum_pos (fun f hf => mul_pos (hT0 f (Finset.mem_range.1 hf)) (add_pos_of_nonneg_of_pos (abs_nonneg _) hui.c_pos)) ?_
    have := h.conf.lin.three i hi
    exact ⟨0, Finset.mem_range.2 (by omega)⟩
  exact update_pos hui hT0 (sides_closed h hi)
    (fun f hf => splits_of D.gas hg h3 hm hui (hX f hf) (Disc.fNrm_unit (h.nz (i, f) ⟨hi, hf⟩))) (div_nonneg hc0 hIpos.le)
    (by rw [div_mul_eq_mul_div, div_le_one hIpos]; exact hcfl)

/-- Every physical boundary face has a condition with positive ghost states. -/
def SafeBcs (D : Disc) : Prop := ∀ k, k < D.G.m.nbface → ∃ o, D.bc (D.tag k) = some o ∧ SafeBc D.gas o

theorem SafeBcs.ok (h : SafeBcs D) : D.BcOk := fun k hk => by
  obtain ⟨o, h1, -⟩ := h k hk
  rw [h1]; rfl

theorem SafeBcs.ghost (h : SafeBcs D) (hG : D.G.Ok) {u : ℕ → St} (hu : ∀ j, j < D.G.rows → Adm D.gas (u j)) {k : ℕ} (hk : k < D.G.m.nbface) : Adm D.gas (ghosts D u k) := by
  obtain ⟨o, h1, h2⟩ := h k hk
  have hk' : k < D.G.nface := Disc.bnd_lt hG hk
  have hl := (hG.kind hk').1
  unfold ghosts Disc.bstate
  rw [h1]
  exact safe_adm h2 (hu _ (by unfold Geo.rows; omega)) (Disc.nrm_unit hG hk')

/-- C93: with van Leer's flux every explicit step with a CFL number from 0 to 1 keeps density and pressure of all cells positive, whatever the states are. Missing for
the full claim: the other schemes, for which it fails. -/
theorem C93_vanLeer_partial (h : D.G.Ok) (hV : D.viscous = false) (hg : 4 ≤ 3 * D.gas.g) (h3 : D.gas.g ≤ 3) (hm : D.scheme = .vanLeer) (hb : SafeBcs D)
    (hcn : D.G.m.nconnface = 0) (har : ∀ i, i < D.G.m.nelem → 0 < D.G.ar i) {cfl : ℝ} (hc0 : 0 ≤ cfl) (hc1 : cfl ≤ 1) {u : ℕ → St}
    (hu : ∀ i, i < D.G.m.nelem → Adm D.gas (u i)) :
    (∃ r, (single D).norm u = some r) ∧ ∀ i, i < D.G.m.nelem → Adm D.gas ((single D).upd cfl u i) := by
  have hrows : ∀ j, j < D.G.rows → Adm D.gas (u j) := fun j hj => hu j (by unfold Geo.rows at hj; omega)
  obtain ⟨o0, hr⟩ : ∃ o, D.residual1 u 0 = some o := ⟨_, by unfold Disc.residual1; rw [if_pos hb.ok]⟩
  constructor
  · refine ⟨Real.sqrt (energy D o0.res), ?_⟩
    simp only [single, hr, Option.bind_some, rootOf]
    rw [if_pos]
    exact Finset.sum_nonneg fun l hl => mul_nonneg (mul_self_nonneg _) (har l (Finset.mem_range.1 hl)).le
  · intro i hi
    obtain ⟨o, ho⟩ := Geo.exists_sides h hi
    obtain ⟨r, h1, h2⟩ := C93_step_partial h hV hg h3 (by rw [hm]; trivial) hb.ok hrows (fun k hk => hb.ghost h hrows hk) hi (har i hi) ho hc0 (by
      rw [Finset.mul_sum]
      refine Finset.sum_le_sum fun f hf => ?_
      have hT := (fLen_pos (h.nz (i, f) ⟨hi, Finset.mem_range.1 hf⟩)).le
      rw [hm]
      simp only [outRate]
      rw [mul_left_comm]
      refine mul_le_mul_of_nonneg_left ?_ hT
      have hc := (hu i hi).c_pos
      have ha := neg_abs_le (Gas.varsVn (u i) (fNrm (nodeA D.G.m i f) (nodeB D.G.m i f)))
      have hn := abs_nonneg (Gas.varsVn (u i) (fNrm (nodeA D.G.m i f) (nodeB D.G.m i f)))
      have hmx : max 0 (cSide D.gas (u i) - Gas.varsVn (u i) (fNrm (nodeA D.G.m i f) (nodeB D.G.m i f))) ≤
          |Gas.varsVn (u i) (fNrm (nodeA D.G.m i f) (nodeB D.G.m i f))| + cSide D.gas (u i) := max_le (by linarith) (by linarith)
      have h0 : 0 ≤ max 0 (cSide D.gas (u i) - Gas.varsVn (u i) (fNrm (nodeA D.G.m i f) (nodeB D.G.m i f))) := le_max_left _ _
      nlinarith)
    have : (single D).upd cfl u = euler D cfl r r.res u := by simp only [single, h1]
    rw [this]; exact h2

/-- C93 for local Lax-Friedrichs: a CFL number up to 1 suffices if no wave speed beyond a face exceeds the cell's own by more than the factor `2 / cfl`. -/
theorem C93_llf_partial (h : D.G.Ok) (hV : D.viscous = false) (hg : 4 ≤ 3 * D.gas.g) (h3 : D.gas.g ≤ 3) (hm : D.scheme = .llf) (hb : D.BcOk) {u : ℕ → St}
    (hu : ∀ j, j < D.G.rows → Adm D.gas (u j)) (hgh : ∀ k, k < D.G.m.nbface → Adm D.gas (ghosts D u k)) {i : ℕ} (hi : i < D.G.m.nelem) (har : 0 < D.G.ar i)
    {o : ℕ → Other} (ho : ∀ f, f < D.G.m.nnode i → Across D.G.m (i, f) (o f)) {cfl : ℝ} (hc0 : 0 ≤ cfl) (hc2 : cfl ≤ 2)
    (hw : ∀ f, f < D.G.m.nnode i → cfl * (|Gas.varsVn ((o f).val D.G.m u (ghosts D u)) (fNrm (nodeA D.G.m i f) (nodeB D.G.m i f))| +
        cSide D.gas ((o f).val D.G.m u (ghosts D u))) ≤
      2 * (|Gas.varsVn (u i) (fNrm (nodeA D.G.m i f) (nodeB D.G.m i f))| + cSide D.gas (u i))) :
    ∃ r, D.residual1 u 0 = some r ∧ Adm D.gas (euler D cfl r r.res u i) := by
  refine C93_step_partial h hV hg h3 (by rw [hm]; trivial) hb hu hgh hi har ho hc0 ?_
  rw [Finset.mul_sum]
  refine Finset.sum_le_sum fun f hf => ?_
  have hT := (fLen_pos (h.nz (i, f) ⟨hi, Finset.mem_range.1 hf⟩)).le
  rw [hm]
  simp only [outRate]
  rw [mul_left_comm]
  refine mul_le_mul_of_nonneg_left ?_ hT
  have hs : 0 ≤ |Gas.varsVn (u i) (fNrm (nodeA D.G.m i f) (nodeB D.G.m i f))| + cSide D.gas (u i) :=
    add_nonneg (abs_nonneg _) (hu i (by unfold Geo.rows; omega)).c_pos.le
  have := hw f (Finset.mem_range.1 hf)
  rcases max_choice (|Gas.varsVn (u i) (fNrm (nodeA D.G.m i f) (nodeB D.G.m i f))| + cSide D.gas (u i))
    (|Gas.varsVn ((o f).val D.G.m u (ghosts D u)) (fNrm (nodeA D.G.m i f) (nodeB D.G.m i f))| + cSide D.gas ((o f).val D.G.m u (ghosts D u))) with e | e <;> rw [e] <;> nlinarith

/-- States that a loop of the explicit solver visits. -/
theorem traj_pos {P : Prob (ℕ → St)} {good : (ℕ → St) → Prop} {c : Conf} (hs : ∀ u, good u → (∃ r, P.norm u = some r) ∧ good (P.upd c.cflinit u)) {u : ℕ → St}
    (hu : good u) (j : ℕ) : ∃ m, traj forwardEuler P c u j = some m ∧ good m.u := by
  induction j with
  | zero => exact ⟨_, rfl, hu⟩
  | succ j ih =>
    obtain ⟨m, h1, h2⟩ := ih
    obtain ⟨⟨r, hr⟩, h4⟩ := hs m.u h2
    refine ⟨_, by rw [traj, h1, Option.bind_some, body, hr], h4⟩

/-- C93, whole runs: from admissible states the explicit steady solver with van Leer's flux and an initial CFL number from 0 to 1 visits admissible states only, for any
number of iterations, and never ends with a numerical error. Missing for the full claim: the other schemes. -/
theorem C93_run_partial (h : D.G.Ok) (hV : D.viscous = false) (hg : 4 ≤ 3 * D.gas.g) (h3 : D.gas.g ≤ 3) (hm : D.scheme = .vanLeer) (hb : SafeBcs D)
    (hcn : D.G.m.nconnface = 0) (har : ∀ i, i < D.G.m.nelem → 0 < D.G.ar i) {c : Conf} (hc0 : 0 ≤ c.cflinit) (hc1 : c.cflinit ≤ 1) {u : ℕ → St}
    (hu : ∀ i, i < D.G.m.nelem → Adm D.gas (u i)) :
    (∀ j, ∃ m, traj forwardEuler (single D) c u j = some m ∧ ∀ i, i < D.G.m.nelem → Adm D.gas (m.u i)) ∧
    ∀ k out, Solve forwardEuler (single D) c u k out → out ≠ .numErr := by
  have key := fun j => traj_pos (P := single D) (good := fun u => ∀ i, i < D.G.m.nelem → Adm D.gas (u i)) (c := c)
    (fun u hu => C93_vanLeer_partial h hV hg h3 hm hb hcn har hc0 hc1 hu) hu j
  refine ⟨key, fun k out hs => ?_⟩
  unfold Solve at hs
  split_ifs at hs with h0
  · rw [hs.2]; simp
  · obtain ⟨o, hl, ho⟩ := hs
    have : ∀ {m : Mem (ℕ → St)} {k o}, Loop (Ode.cond c) (body forwardEuler (single D) c) m k o → (∀ i, i < D.G.m.nelem → Adm D.gas (m.u i)) → o ≠ none := by
      intro m k o hl
      induction hl with
      | done _ => intro _ h; cases h
      | @step s s' n o _ h2 _ ih =>
        intro hg'
        refine ih ?_
        obtain ⟨⟨r, hr⟩, hup⟩ := C93_vanLeer_partial h hV hg h3 hm hb hcn har hc0 hc1 hg'
        simp only [body, hr, Option.some.injEq] at h2
        subst h2
        exact hup
      | @throws s _ h2 =>
        intro hg'
        obtain ⟨⟨r, hr⟩, -⟩ := C93_vanLeer_partial h hV hg h3 hm hb hcn har hc0 hc1 hg'
        simp only [body, hr] at h2
        cases h2
    cases o with
    | none => exact absurd rfl (this hl hu)
    | some m =>
      rw [ho]
      simp only [forwardEuler]
      split_ifs <;> simp

end step

/-- C93 with C88: on several processes, for assignments that are non-decreasing along the cell numbering and register all interface faces, the explicit steady solver with
van Leer's flux and an initial CFL number from 0 to 1 ends as the single process does, whatever the admissible initial states. -/
theorem C93_several_partial {gm : Mesh} {s : FState} {dist : ℕ → ℕ} (hc : Conforming gm) (hn : gm.nconnface = 0) (ht : gm.nbtag ≤ 4) (h : topological gm = .ok s)
    (hz : NoZeroFace gm) (hall : AllRegistered gm s dist) {n : ℕ} (hd : ∀ g, g < gm.nelem → dist g < n)
    (hmono : ∀ i j, i < j → j < gm.nelem → dist i ≤ dist j) (P : Settings) (hV : P.viscous = false) (hm : P.scheme = .vanLeer) (hb : SafeBcs (P.disc gm s 0))
    (hg : 4 ≤ 3 * P.gas.g) (h3 : P.gas.g ≤ 3) (har : ∀ i, i < gm.nelem → 0 < (area gm i).getD 0) {w : ℕ → St} (hw : ∀ i, i < gm.nelem → Adm P.gas (w i))
    {loc : ℕ → ℕ → St} (hl : Represents gm s dist loc w) {c : Conf} (hc0 : 0 ≤ c.cflinit) (hc1 : c.cflinit ≤ 1) {k : ℕ} {out : Ode.Out} :
    Solve forwardEuler (several P gm s dist n) c loc k out ↔ Solve forwardEuler (single (P.disc gm s 0)) c w k out := by
  have hok : (P.disc gm s 0).G.Ok := ⟨hc, hz, h⟩
  obtain ⟨key, -⟩ := C93_run_partial hok hV hg h3 hm hb hn har hc0 hc1 hw
  have hadm : ∀ k j, j < k → ∀ m, traj forwardEuler (single (P.disc gm s 0)) c w j = some m → ∀ i, i < gm.nelem → Adm P.gas (m.u i) := by
    intro k j _ m hm'
    obtain ⟨m', e, h'⟩ := key j
    rw [hm'] at e; cases e
    exact h'
  constructor
  · intro hs
    obtain ⟨k', out', hs'⟩ := (C56_terminates forwardEuler (single (P.disc gm s 0)) c w).1
    obtain ⟨-, h2, -⟩ := C88_run_partial hc hn ht h hz hall hd hmono P hb.ok hg hl hs' (hadm k')
    obtain ⟨rfl, rfl⟩ := h2 k out hs
    exact hs'
  · intro hs
    exact (C88_run_partial hc hn ht h hz hall hd hmono P hb.ok hg hl hs (hadm k)).1

/-! ### Two unit squares side by side -/

/-- Squares [0,1]² and [1,2]×[0,1]; cells (0, 1, 4, 3) and (1, 2, 5, 4). -/
noncomputable def pair : Mesh where
  npoin := 6
  nelem := 2
  nbface := 6
  nconnface := 0
  nbtag := 1
  ndtag := 1
  nnode := fun _ => 4
  nfael := fun _ => 4
  inpoel := fun i j => i + if j = 0 then 0 else if j = 1 then 1 else if j = 2 then 4 else 3
  bface := fun k j => if k = 0 then j else if k = 1 then j + 1 else if k = 2 then (if j = 0 then 2 else 5) else if k = 3 then 5 - j
    else if k = 4 then 4 - j else (if j = 0 then 3 else 0)
  btag := fun _ _ => 1
  volRegions := fun i _ => i
  connface := fun _ _ => 0
  coords := fun i k => if k = 0 then ((i % 3 : ℕ) : ℝ) else ((i / 3 : ℕ) : ℝ)

theorem pair_conforming : Conforming pair := (by decide +kernel : Check pair).conforming

theorem pair_hosts : bfaceHosts pair (esup pair) = .ok [(0, 0), (1, 0), (1, 1), (1, 2), (0, 2), (0, 3)] := by decide +kernel

theorem pair_topological : ∃ s, topological pair = .ok s ∧ s.faces = [⟨0, 2, 0, 1⟩, ⟨1, 3, 1, 2⟩, ⟨1, 4, 2, 5⟩, ⟨1, 5, 5, 4⟩, ⟨0, 6, 4, 3⟩, ⟨0, 7, 3, 0⟩,
    ⟨0, 1, 1, 4⟩] := by
  rw [topological, faceConnectivity, pair_hosts]
  exact ⟨_, rfl, by decide +kernel⟩

theorem pair_nozero : NoZeroFace pair := by
  rintro ⟨i, f⟩ ⟨hi, hf⟩
  have hi : i < 2 := hi
  have hf : f < 4 := hf
  obtain rfl | rfl : i = 0 ∨ i = 1 := by omega
  all_goals
    obtain rfl | rfl | rfl | rfl : f = 0 ∨ f = 1 ∨ f = 2 ∨ f = 3 := by omega
    all_goals
      intro e
      have e0 := congrFun e 0
      have e1 := congrFun e 1
      simp [pair] at e0 e1

theorem pair_area {i : ℕ} (hi : i < 2) : (area pair i).getD 0 = 1 := by
  obtain rfl | rfl : i = 0 ∨ i = 1 := by omega
  all_goals norm_num [area, pair, triArea]

/-- Air, all boundaries extrapolation. -/
noncomputable def airOut (sch : Scheme) : Settings := ⟨air, sch, false, false, fun _ => some .extrapolation⟩

/-- States of the two cells. -/
def two (a b : St) : ℕ → St := fun i => if i = 0 then a else b

/-- What lies across the sides of the first square. -/
def pairSide (f : ℕ) : Other := if f = 1 then .cell 1 else .bnd (if f = 0 then 0 else if f = 2 then 4 else 5)

theorem pair_across (f : ℕ) (hf : f < pair.nnode 0) : Across pair (0, f) (pairSide f) := by
  have hf : f < 4 := hf
  obtain rfl | rfl | rfl | rfl : f = 0 ∨ f = 1 ∨ f = 2 ∨ f = 3 := by omega
  · exact ⟨by decide +kernel, by decide +kernel, by decide +kernel⟩
  · exact ⟨3, ⟨by decide +kernel, by decide +kernel⟩, ⟨by decide +kernel, by decide +kernel⟩, by simp, by decide +kernel⟩
  · exact ⟨by decide +kernel, by decide +kernel, by decide +kernel⟩
  · exact ⟨by decide +kernel, by decide +kernel, by decide +kernel⟩

/-- Explicit step of the first square with CFL number 1. -/
theorem pair_step {s : FState} (hs : topological pair = .ok s) (hf : s.faces = [⟨0, 2, 0, 1⟩, ⟨1, 3, 1, 2⟩, ⟨1, 4, 2, 5⟩, ⟨1, 5, 5, 4⟩, ⟨0, 6, 4, 3⟩, ⟨0, 7, 3, 0⟩,
    ⟨0, 1, 1, 4⟩]) (sch : Scheme) {a b : St} (ha : Adm air a) (hb : Adm air b) :
    (single ((airOut sch).disc pair s 0)).upd 1 (two a b) 0 =
      a - (1 / (2 * (|Gas.vel a 0| + cSide air a) + 2 * (|Gas.vel a 1| + cSide air a))) • (sch.flux air a b ![1, 0] - air.eulerFlux a ![1, 0]) := by
  set D := (airOut sch).disc pair s 0 with hD
  have hok : D.G.Ok := ⟨pair_conforming, pair_nozero, hs⟩
  have hu : ∀ j, Adm D.gas (two a b j) := fun j => by
    unfold two; split_ifs <;> assumption
  have hgh : ∀ k, ghosts D (two a b) k = two a b (D.G.face k).left := fun k => rfl
  have hA : ∀ f, f < D.G.m.nnode 0 → Across D.G.m (0, f) (pairSide f) := pair_across
  obtain ⟨-, r, hr, e⟩ := euler_cell (D := D) hok rfl (by norm_num [hD, Settings.disc, airOut, air]) (fun k _ => rfl) (fun j _ => hu j) (fun k _ => hgh k ▸ hu _) (i := 0)
    (by show 0 < 2; omega) (by show (area pair 0).getD 0 ≠ 0; rw [pair_area (by omega)]; norm_num) hA 1
  have e1 : (single D).upd 1 (two a b) = euler D 1 r r.res (two a b) := by simp only [single, hr]
  have g0 : ghosts D (two a b) 0 = a := by rw [hgh]; show two a b (faceAt s.faces 0).left = a; rw [hf]; rfl
  have g4 : ghosts D (two a b) 4 = a := by rw [hgh]; show two a b (faceAt s.faces 4).left = a; rw [hf]; rfl
  have g5 : ghosts D (two a b) 5 = a := by rw [hgh]; show two a b (faceAt s.faces 5).left = a; rw [hf]; rfl
  have t0 : two a b 0 = a := rfl
  have hl : ∀ f, f < 4 → fLen (nodeA D.G.m 0 f) (nodeB D.G.m 0 f) = 1 := by
    intro f hf
    obtain rfl | rfl | rfl | rfl : f = 0 ∨ f = 1 ∨ f = 2 ∨ f = 3 := by omega
    all_goals
      show fLen (pair.coords _) (pair.coords _) = 1
      norm_num [fLen, pair, hD, Settings.disc]
  have hn : fNrm (nodeA D.G.m 0 0) (nodeB D.G.m 0 0) = ![0, -1] ∧ fNrm (nodeA D.G.m 0 1) (nodeB D.G.m 0 1) = ![1, 0] ∧
      fNrm (nodeA D.G.m 0 2) (nodeB D.G.m 0 2) = ![0, 1] ∧ fNrm (nodeA D.G.m 0 3) (nodeB D.G.m 0 3) = ![-1, 0] := by
    refine ⟨?_, ?_, ?_, ?_⟩
    all_goals
      unfold fNrm
      rw [hl _ (by omega)]
      norm_num [nodeA, nodeB, pair, hD, Settings.disc]
  obtain ⟨n0, n1, n2, n3⟩ := hn
  have hN : D.G.m.nnode 0 = 4 := rfl
  have hcl := euler_closed (G := air) (u := a) (sides_closed hok (i := 0) (by show 0 < 2; omega))
  rw [e1, e]
  rw [hN] at hcl ⊢
  have hco : ∀ n, sch.flux air a a n = air.eulerFlux a n := fun n => C15_consistency air a n ha sch
  have hgas : D.gas = air := rfl
  have hsch : D.scheme = sch := rfl
  have p0 : (pairSide 0).val D.G.m (two a b) (ghosts D (two a b)) = a := g0
  have p1 : (pairSide 1).val D.G.m (two a b) (ghosts D (two a b)) = b := rfl
  have p2 : (pairSide 2).val D.G.m (two a b) (ghosts D (two a b)) = a := g4
  have p3 : (pairSide 3).val D.G.m (two a b) (ghosts D (two a b)) = a := g5
  simp only [Finset.sum_range_succ, Finset.sum_range_zero, hl 0 (by omega), hl 1 (by omega), hl 2 (by omega), hl 3 (by omega), n0, n1, n2, n3, one_smul, one_mul, zero_add] at hcl ⊢
  rw [p0, p1, p2, p3, t0, hgas, hsch]
  simp only [hco]
  have hv : ∀ x y : ℝ, Gas.varsVn a ![x, y] = Gas.vel a 0 * x + Gas.vel a 1 * y := fun x y => by
    rw [varsVn_def]; rfl
  simp only [hv, mul_zero, mul_one, mul_neg, zero_add, add_zero, abs_neg]
  have e2 : air.eulerFlux a ![0, -1] + sch.flux air a b ![1, 0] + air.eulerFlux a ![0, 1] + air.eulerFlux a ![-1, 0] = sch.flux air a b ![1, 0] - air.eulerFlux a ![1, 0] := by
    rw [← sub_eq_zero, ← hcl]; abel
  rw [e2]
  congr 2
  ring

/-- Gas at rest, density and speed of sound 1. -/
noncomputable def cold : St := ![1, 0, 0, 25 / 14]

/-- Gas at rest, density 1/400 and speed of sound 197. -/
noncomputable def hot : St := ![1 / 400, 0, 0, 38809 / 224]

theorem cold_adm : Adm air cold := by
  refine ⟨by norm_num [air], by norm_num [cold], ?_⟩
  simp [Gas.pressure, Gas.pressureOfInternal, cold, air, mom, dot]; norm_num

theorem hot_adm : Adm air hot := by
  refine ⟨by norm_num [air], by norm_num [hot], ?_⟩
  simp [Gas.pressure, Gas.pressureOfInternal, hot, air, mom, dot]; norm_num

theorem cold_p : air.varsP cold = 5 / 7 := by simp [Gas.varsP, Gas.vel, cold, air, dot]; norm_num
theorem hot_p : air.varsP hot = 38809 / 560 := by simp [Gas.varsP, Gas.vel, hot, air, dot]; norm_num

theorem cold_c : cSide air cold = 1 := by
  unfold cSide Gas.soundSpeed
  rw [cold_p]
  norm_num [cold, air]

theorem hot_c : cSide air hot = 197 := by
  unfold cSide Gas.soundSpeed
  rw [hot_p, show air.g * (38809 / 560) / hot 0 = 197 ^ 2 by norm_num [hot, air]]
  exact Real.sqrt_sq (by norm_num)

theorem cold_vn (n : V2) : Gas.varsVn cold n = 0 := by simp [varsVn_def, Gas.vel, cold]
theorem hot_vn (n : V2) : Gas.varsVn hot n = 0 := by simp [varsVn_def, Gas.vel, hot]

theorem cold_flux (n : V2) : air.eulerFlux cold n = ![0, 5 / 7 * n 0, 5 / 7 * n 1, 0] := by
  rw [eulerFlux_eq cold_adm.rho', cold_p, cold_vn]
  funext i; fin_cases i <;> simp [Gas.dirFlux]

theorem hot_flux (n : V2) : air.eulerFlux hot n = ![0, 38809 / 560 * n 0, 38809 / 560 * n 1, 0] := by
  rw [eulerFlux_eq hot_adm.rho', hot_p, hot_vn]
  funext i; fin_cases i <;> simp [Gas.dirFlux]

/-- Roe averages between cold and hot gas: no velocity, speed of sound 43. -/
theorem cold_hot_roe (n : V2) : (roeOf air cold hot n).vn = 0 ∧ (roeOf air cold hot n).c = 43 := by
  have hR : Real.sqrt (hot 0 / cold 0) = 1 / 20 := by
    rw [show hot 0 / cold 0 = (1 / 20) ^ 2 by norm_num [hot, cold]]
    exact Real.sqrt_sq (by norm_num)
  have hv : ∀ i, Gas.vel cold i = 0 ∧ Gas.vel hot i = 0 := fun i => by fin_cases i <;> simp [Gas.vel, cold, hot]
  unfold roeOf roeAvg
  simp only [hR, (hv 0).1, (hv 1).1, (hv 0).2, (hv 1).2, Gas.varsH, cold_p, hot_p]
  refine ⟨by simp [dot], ?_⟩
  rw [show ∀ x : ℝ, x = 43 ^ 2 → Real.sqrt x = 43 from fun x h => by rw [h]; exact Real.sqrt_sq (by norm_num)]
  simp [dot, air, hot, cold]; norm_num

theorem cold_hot_sl (n : V2) : slOf air cold hot n = -43 := by
  unfold slOf waveL
  rw [(cold_hot_roe n).1, (cold_hot_roe n).2, cold_vn, cold_c]; norm_num

theorem cold_hot_sr (n : V2) : srOf air cold hot n = 197 := by
  unfold srOf waveR
  rw [(cold_hot_roe n).1, (cold_hot_roe n).2, hot_vn, hot_c]; norm_num

theorem not_adm_of_rho {G : Gas} {u : St} (h : u 0 ≤ 0) : ¬ Adm G u := fun ha => absurd ha.rho (not_lt.2 h)

theorem not_adm_of_p {G : Gas} {u : St} (h : 2 * (u 0 * u 3) ≤ u 1 * u 1 + u 2 * u 2) : ¬ Adm G u := fun ha => by
  have := (adm_iff.1 ha).2.2
  linarith

/-- Gas moving in direction `d` with speed 20, density and speed of sound 1. -/
noncomputable def fast (d : ℝ) : St := ![1, 20 * d, 0, 200 * d * d + 25 / 14]

theorem fast_adm (d : ℝ) : Adm air (fast d) := by
  refine adm_iff.2 ⟨by norm_num [air], by norm_num [fast], ?_⟩
  simp [fast]; nlinarith

theorem fast_p (d : ℝ) : air.varsP (fast d) = 5 / 7 := by simp [Gas.varsP, Gas.vel, fast, air, dot]; ring

theorem fast_c (d : ℝ) : cSide air (fast d) = 1 := by
  unfold cSide Gas.soundSpeed
  rw [fast_p]
  norm_num [fast, air]

theorem fast_vn (d : ℝ) : Gas.varsVn (fast d) ![1, 0] = 20 * d := by simp [varsVn_def, Gas.vel, fast]

theorem fast_flux (d : ℝ) : air.eulerFlux (fast d) ![1, 0] = ![20 * d, 400 * d * d + 5 / 7, 0, 20 * d * (200 * d * d + 5 / 2)] := by
  rw [eulerFlux_eq (fast_adm d).rho', fast_p, fast_vn]
  generalize hq : (5 / 7 : ℝ) = q
  funext i; fin_cases i <;> simp [Gas.dirFlux, fast] <;> try ring_nf
  left; rw [← hq]; ring

/-- Roe averages of gas moving apart: at rest, speed of sound 9. -/
theorem apart_roe : roeOf air (fast (-1)) (fast 1) ![1, 0] = ⟨1, 1, 0, 0, 0, 405 / 2, 9⟩ := by
  have hR : Real.sqrt (fast 1 0 / fast (-1) 0) = 1 := by norm_num [fast]
  have hv : ∀ d, Gas.vel (fast d) 0 = 20 * d ∧ Gas.vel (fast d) 1 = 0 := fun d => by constructor <;> simp [Gas.vel, fast]
  have h9 : ∀ x : ℝ, x = 9 ^ 2 → Real.sqrt x = 9 := fun x h => by rw [h]; exact Real.sqrt_sq (by norm_num)
  have hz : (![(1 * (20 * 1) + 20 * -1) / (1 + 1), (1 * 0 + 0) / (1 + 1)] : V2) = 0 := by
    funext i; fin_cases i <;> norm_num
  unfold roeOf roeAvg
  simp only [hR, (hv _).1, (hv _).2, Gas.varsH, fast_p, hz]
  refine Avg.mk.injEq .. ▸ ⟨rfl, by norm_num [fast], rfl, by simp [dot], by simp [dot], by simp [fast]; norm_num, ?_⟩
  refine h9 _ ?_
  simp [dot, air, fast]; norm_num

/-- C93 fails at CFL number 1 for every other scheme: air in two unit squares, extrapolation on all boundaries. One explicit step leaves a state of non-positive density or
pressure in the first square. -/
theorem C93_cfl_one_refuted (sch : Scheme) (hsch : sch ≠ .vanLeer) : ∃ s, Conforming pair ∧ topological pair = .ok s ∧ NoZeroFace pair ∧
    (∀ i, i < pair.nelem → (area pair i).getD 0 = 1) ∧ SafeBcs ((airOut sch).disc pair s 0) ∧ ∃ u, (∀ i, Adm air (u i)) ∧
      ¬ Adm air ((single ((airOut sch).disc pair s 0)).upd 1 u 0) := by
  obtain ⟨s, hs, hf⟩ := pair_topological
  refine ⟨s, pair_conforming, hs, pair_nozero, fun i hi => pair_area hi, fun k _ => ⟨_, rfl, trivial⟩, ?_⟩
  have hadm : ∀ {a b}, Adm air a → Adm air b → ∀ i, Adm air (two a b i) := fun ha hb i => by
    unfold two; split_ifs <;> assumption
  have hv : ∀ i, Gas.vel cold i = 0 := fun i => by fin_cases i <;> simp [Gas.vel, cold]
  have hstep : (single ((airOut sch).disc pair s 0)).upd 1 (two cold hot) 0 = cold - (1 / 4 : ℝ) • (sch.flux air cold hot ![1, 0] - air.eulerFlux cold ![1, 0]) := by
    rw [pair_step hs hf sch cold_adm hot_adm, hv, hv, cold_c]
    norm_num
  cases sch with
  | vanLeer => exact absurd rfl hsch
  | llf =>
    refine ⟨two cold hot, hadm cold_adm hot_adm, ?_⟩
    rw [hstep]
    refine not_adm_of_rho ?_
    simp only [Scheme.flux, llf, llfEig, cold_vn, hot_vn, cold_c, hot_c, cold_flux, hot_flux, Pi.sub_apply, Pi.smul_apply, smul_eq_mul]
    norm_num [cold, hot]
  | hll =>
    refine ⟨two cold hot, hadm cold_adm hot_adm, ?_⟩
    rw [hstep]
    refine not_adm_of_rho ?_
    simp only [Scheme.flux, Pi.sub_apply, Pi.smul_apply, smul_eq_mul]
    rw [hll_eq cold_adm hot_adm, cold_hot_sl, cold_hot_sr, cold_flux, hot_flux]
    norm_num [cold, hot, hllT1, hllT3]
  | hllc =>
    refine ⟨two cold hot, hadm cold_adm hot_adm, ?_⟩
    rw [hstep]
    have hsm : smOf air cold hot ![1, 0] = -(38409 / 560 / (197 / 400 + 43)) := by
      unfold smOf contact
      rw [cold_hot_sl, cold_hot_sr, cold_vn, hot_vn, cold_p, hot_p]
      norm_num [cold, hot]
    have hF : hllc air cold hot ![1, 0] = fun i => Gas.dirFlux hot ![1, 0] 0 (38809 / 560) i +
        197 * (Flux.star hot ![1, 0] 0 (38809 / 560) 197 (-(38409 / 560 / (197 / 400 + 43))) i - hot i) := by
      unfold hllc hllcCore
      rw [cold_hot_sl, cold_hot_sr, cold_vn, hot_vn, cold_p, hot_p, hsm, if_neg (by norm_num), if_neg (by norm_num), if_pos (by norm_num)]
    refine not_adm_of_p ?_
    simp only [Scheme.flux, hF, cold_flux, Pi.sub_apply, Pi.smul_apply, smul_eq_mul]
    simp [cold, hot, Flux.star, Gas.dirFlux]; norm_num
  | ausm =>
    refine ⟨two cold hot, hadm cold_adm hot_adm, ?_⟩
    rw [hstep]
    refine not_adm_of_p ?_
    simp only [Scheme.flux, ausm, cold_vn, hot_vn, cold_p, hot_p, cold_c, hot_c, cold_flux, Pi.sub_apply, Pi.smul_apply, smul_eq_mul]
    simp [cold, hot, ausmCore, ausmML, ausmMR, ausmPL, ausmPR]; norm_num
  | ausmPlus =>
    refine ⟨two cold hot, hadm cold_adm hot_adm, ?_⟩
    rw [hstep]
    refine not_adm_of_p ?_
    simp only [Scheme.flux, ausmPlus, cold_vn, hot_vn, cold_p, hot_p, cold_flux, Pi.sub_apply, Pi.smul_apply, smul_eq_mul, zero_div]
    simp [cold, hot, ausmpCore, ausmpML, ausmpMR, ausmpPL, ausmpPR]; norm_num
  | roe =>
    refine ⟨two (fast (-1)) (fast 1), hadm (fast_adm _) (fast_adm _), ?_⟩
    have h0 : Gas.vel (fast (-1)) 0 = -20 := by simp [Gas.vel, fast]
    have h1 : Gas.vel (fast (-1)) 1 = 0 := by simp [Gas.vel, fast]
    have h2 : Gas.vel (fast 1) 0 = 20 := by simp [Gas.vel, fast]
    have h3 : Gas.vel (fast 1) 1 = 0 := by simp [Gas.vel, fast]
    have hF : roe air (fast (-1)) (fast 1) ![1, 0] = ![0, 400 + 5 / 7 - 180, 0, 0] := by
      have hL : roeL ⟨1, 1, 0, 0, 0, 405 / 2, 9⟩ = ![9, 1 / 2 * (1 / 10000 * 9), 1 / 2 * (1 / 10000 * 9), 9] := by
        funext i; fin_cases i <;> simp [roeL, roeL0, harten, fixeps] <;> norm_num
      funext i
      simp only [roe, apart_roe, fast_vn, fast_p, h0, h1, h2, h3, hL]
      fin_cases i <;> simp [roeLA, roeADU, Gas.dirFlux, fast] <;> norm_num
    rw [pair_step hs hf .roe (fast_adm _) (fast_adm _), h0, h1, fast_c]
    refine not_adm_of_p ?_
    simp only [Scheme.flux, hF, fast_flux, Pi.sub_apply, Pi.smul_apply, smul_eq_mul]
    simp [fast]; norm_num

/-- Hypotheses of `C93_vanLeer_partial` are met where the other schemes fail. -/
example : ∃ s, topological pair = .ok s ∧ ∀ i, i < 2 → Adm air ((single ((airOut .vanLeer).disc pair s 0)).upd 1 (two cold hot) i) := by
  obtain ⟨s, hs, -⟩ := pair_topological
  refine ⟨s, hs, (C93_vanLeer_partial (D := (airOut .vanLeer).disc pair s 0) ⟨pair_conforming, pair_nozero, hs⟩ rfl (by norm_num [Settings.disc, airOut, air])
    (by norm_num [Settings.disc, airOut, air]) rfl (fun k _ => ⟨_, rfl, trivial⟩) rfl (fun i hi => ?_) (by norm_num) le_rfl fun i _ => ?_).2⟩
  · show 0 < (area pair i).getD 0
    rw [pair_area hi]; norm_num
  · unfold two
    split_ifs
    exacts [cold_adm, hot_adm]

/-- Hypotheses of `C93_run_partial` and `C93_several_partial` are met: any number of iterations on the square cut by its diagonals, two triangles on each of two ranks, slip walls. -/
example : ∃ s, topological FV.Geo.cross = .ok s ∧ ∀ (c : Conf), c.cflinit = 1 → ∀ k out,
    (Solve forwardEuler (several ⟨air, .vanLeer, false, false, fun _ => some .slip⟩ FV.Geo.cross s (fun i => i / 2) 2) c (split FV.Geo.cross s (fun i => i / 2) bump) k out ↔
      Solve forwardEuler (single (Settings.disc ⟨air, .vanLeer, false, false, fun _ => some .slip⟩ FV.Geo.cross s 0)) c bump k out) ∧
    (Solve forwardEuler (single (Settings.disc ⟨air, .vanLeer, false, false, fun _ => some .slip⟩ FV.Geo.cross s 0)) c bump k out → out ≠ .numErr) := by
  obtain ⟨s, hs, -⟩ := FV.Geo.cross_topological
  have har : ∀ i, i < 4 → 0 < (area FV.Geo.cross i).getD 0 := fun i hi => by
    have := cross_area hi (air1 (rest 1)) s
    simp only [Settings.disc] at this
    rw [this]; norm_num
  have hb : SafeBcs (Settings.disc ⟨air, .vanLeer, false, false, fun _ => some .slip⟩ FV.Geo.cross s 0) := fun k _ => ⟨_, rfl, trivial⟩
  refine ⟨s, hs, fun c hc k out => ⟨?_, ?_⟩⟩
  · exact C93_several_partial cross_conforming rfl (by decide +kernel) hs FV.Geo.cross_nozero (cross_all hs _) (fun g hg => by
        have : g < 4 := hg
        show g / 2 < 2
        omega) (fun i j h _ => Nat.div_le_div_right h.le) _ rfl rfl hb (by norm_num [air]) (by norm_num [air]) (fun i hi => har i hi) (fun i _ => bump_adm i)
      (split_represents _ _ _ _) (by rw [hc]; norm_num) hc.le
  · exact (C93_run_partial (D := Settings.disc ⟨air, .vanLeer, false, false, fun _ => some .slip⟩ FV.Geo.cross s 0) ⟨cross_conforming, FV.Geo.cross_nozero, hs⟩ rfl
      (by norm_num [Settings.disc, air]) (by norm_num [Settings.disc, air]) rfl hb rfl (fun i hi => har i hi) (by rw [hc]; norm_num) hc.le fun i _ => bump_adm i).2 k out

/-- Hypotheses of `C93_llf_partial` are met: CFL number 1/100 suffices next to gas in which sound is 197 times faster. -/
example : ∃ s, topological pair = .ok s ∧ ∃ r, ((airOut .llf).disc pair s 0).residual1 (two cold hot) 0 = some r ∧
    Adm air (euler ((airOut .llf).disc pair s 0) (1 / 100) r r.res (two cold hot) 0) := by
  obtain ⟨s, hs, hf⟩ := pair_topological
  have hadm : ∀ i, Adm air (two cold hot i) := fun i => by
    unfold two
    split_ifs
    exacts [cold_adm, hot_adm]
  have hX : ∀ f, (pairSide f).val pair (two cold hot) (ghosts ((airOut .llf).disc pair s 0) (two cold hot)) = cold ∨
      (pairSide f).val pair (two cold hot) (ghosts ((airOut .llf).disc pair s 0) (two cold hot)) = hot := fun f => by
    have : ∀ i, two cold hot i = cold ∨ two cold hot i = hot := fun i => by
      unfold two; split_ifs <;> simp
    unfold pairSide
    split_ifs
    all_goals exact this _
  refine ⟨s, hs, C93_llf_partial (D := (airOut .llf).disc pair s 0) ⟨pair_conforming, pair_nozero, hs⟩ rfl (by norm_num [Settings.disc, airOut, air])
    (by norm_num [Settings.disc, airOut, air]) rfl (fun k _ => rfl) (fun j _ => hadm j) (fun k _ => hadm _) (i := 0) (by show 0 < 2; omega)
    (by show 0 < (area pair 0).getD 0; rw [pair_area (by omega)]; norm_num) pair_across (by norm_num) (by norm_num) fun f _ => ?_⟩
  show 1 / 100 * (|Gas.varsVn ((pairSide f).val pair (two cold hot) (ghosts ((airOut .llf).disc pair s 0) (two cold hot))) _| +
    cSide air ((pairSide f).val pair (two cold hot) (ghosts ((airOut .llf).disc pair s 0) (two cold hot)))) ≤ 2 * (|Gas.varsVn cold _| + cSide air cold)
  rcases hX f with e | e
  · rw [e, cold_vn, cold_c]; norm_num
  · rw [e, hot_vn, cold_vn, hot_c, cold_c]; norm_num

end Par
end FVENS
