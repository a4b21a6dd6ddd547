import Verif.Flux.Carried
import Verif.Par.Positive

/-!
# Runs in a uniform stream that carries gas of varying density along (C110)

Velocity and pressure are the same everywhere at the start. Then the explicit solver must keep them so and only move the density, without new extremes.
-/

namespace FVENS
namespace Par

open Msh FV Flux Ode Lin
open Finset (range)

/-! ### Specification -/

/-- All cells move with velocity `w` under pressure `p`; their densities lie from `a` to `b`. -/
def InStream (D : Disc) (w : V2) (p a b : ℝ) (u : ℕ → St) : Prop := ∀ i, i < D.G.m.nelem → ∃ r, a ≤ r ∧ r ≤ b ∧ u i = carried D.gas w p r

/-- Boundary conditions through which such gas may enter, leave or slide along: far fields of the same stream, the in- and outflow condition if the far field has the
pressure that the solver takes for the free stream's, extrapolation, and slip walls along the stream. -/
def StreamBc (G : Gas) (w : V2) (p a b : ℝ) (n : V2) : BC.Obj → Prop
  | .extrapolation => True
  | .farfield c => ∃ r, a ≤ r ∧ r ≤ b ∧ c = carried G w p r
  | .inOut c => p = G.freestreamPressure ∧ ∃ r, a ≤ r ∧ r ≤ b ∧ c = carried G w p r
  | .slip => w 0 * n 0 + w 1 * n 1 = 0
  | .adiabatic tv => tv = 0 ∧ w = 0
  | _ => False

/-- All boundary faces have such conditions. -/
def StreamBcs (D : Disc) (w : V2) (p a b : ℝ) : Prop := ∀ k, k < D.G.m.nbface → ∃ o, D.bc (D.tag k) = some o ∧ StreamBc D.gas w p a b (D.G.nrm k) o

/-! ### One cell -/

section
variable {G : Gas} {w : V2} {p a b : ℝ}

theorem stream_ghost {n : V2} {o : BC.Obj} (ho : StreamBc G w p a b n o) {r : ℝ} (h0 : r ≠ 0) (ha : a ≤ r) (hb : r ≤ b) :
    ∃ r', a ≤ r' ∧ r' ≤ b ∧ o.ghost G (carried G w p r) n = carried G w p r' := by
  cases o with
  | extrapolation => exact ⟨r, ha, hb, rfl⟩
  | farfield c =>
    obtain ⟨r', h1, h2, h3⟩ := ho
    exact ⟨r', h1, h2, h3⟩
  | inOut c =>
    obtain ⟨hp, r', h1, h2, h3⟩ := ho
    simp only [BC.Obj.ghost, BC.inOut]
    split_ifs
    · exact ⟨r', h1, h2, h3⟩
    · refine ⟨r, ha, hb, ?_⟩
      rw [← hp]
      funext i
      fin_cases i <;> simp [carried, Gas.energyOfP, dot, mom]
      field_simp
    · exact ⟨r, ha, hb, rfl⟩
  | slip =>
    refine ⟨r, ha, hb, ?_⟩
    have hv : dot (mom (carried G w p r)) n / carried G w p r 0 = 0 := by
      have : dot (mom (carried G w p r)) n = r * (w 0 * n 0 + w 1 * n 1) := by simp [dot, mom, carried]; ring
      rw [this, show w 0 * n 0 + w 1 * n 1 = 0 from ho]; simp
    simp only [BC.Obj.ghost, BC.slip, hv]
    funext i
    fin_cases i <;> simp
  | adiabatic tv =>
    refine ⟨r, ha, hb, ?_⟩
    obtain ⟨rfl, rfl⟩ := ho
    funext i
    fin_cases i <;> simp [BC.Obj.ghost, BC.adiabatic, carried]
  | inflow _ _ => exact ho.elim
  | isothermal _ _ => exact ho.elim

/-- Fluxes that move momentum and energy with the mass change the density only. -/
theorem update_carried {N : ℕ} {T : ℕ → ℝ} {nn : ℕ → V2} {F : ℕ → St} (hc : ∀ d, ∑ f ∈ range N, T f * nn f d = 0)
    (hF : ∀ f, f < N → Carries G w p (nn f) (F f)) (t r : ℝ) :
    carried G w p r - t • ∑ f ∈ range N, T f • F f = carried G w p (r - t * ∑ f ∈ range N, T f * F f 0) := by
  have e : ∀ v, (∑ f ∈ range N, T f • F f) v = ∑ f ∈ range N, T f * F f v := fun v => by rw [Finset.sum_apply]; rfl
  have e1 : ∑ f ∈ range N, T f * F f 1 = w 0 * ∑ f ∈ range N, T f * F f 0 := by
    have : ∀ f ∈ range N, T f * F f 1 = w 0 * (T f * F f 0) + p * (T f * nn f 0) := fun f hf => by
      rw [(hF f (Finset.mem_range.1 hf)).1]; ring
    rw [Finset.sum_congr rfl this, Finset.sum_add_distrib, ← Finset.mul_sum, ← Finset.mul_sum, hc]; ring
  have e2 : ∑ f ∈ range N, T f * F f 2 = w 1 * ∑ f ∈ range N, T f * F f 0 := by
    have : ∀ f ∈ range N, T f * F f 2 = w 1 * (T f * F f 0) + p * (T f * nn f 1) := fun f hf => by
      rw [(hF f (Finset.mem_range.1 hf)).2.1]; ring
    rw [Finset.sum_congr rfl this, Finset.sum_add_distrib, ← Finset.mul_sum, ← Finset.mul_sum, hc]; ring
  have e3 : ∑ f ∈ range N, T f * F f 3 = (w 0 * w 0 + w 1 * w 1) / 2 * ∑ f ∈ range N, T f * F f 0 := by
    have : ∀ f ∈ range N, T f * F f 3 = (w 0 * w 0 + w 1 * w 1) / 2 * (T f * F f 0) + (G.g / (G.g - 1) * p * w 0 * (T f * nn f 0) + G.g / (G.g - 1) * p * w 1 * (T f * nn f 1)) :=
      fun f hf => by rw [(hF f (Finset.mem_range.1 hf)).2.2]; ring
    rw [Finset.sum_congr rfl this, Finset.sum_add_distrib, Finset.sum_add_distrib, ← Finset.mul_sum, ← Finset.mul_sum, ← Finset.mul_sum, hc, hc]; ring
  funext v
  simp only [Pi.sub_apply, Pi.smul_apply, smul_eq_mul, e]
  fin_cases v
  · simp [carried]
  · simp only [carried]; simp [e1]; ring
  · simp only [carried]; simp [e2]; ring
  · simp only [carried]; simp [e3]; ring

/-- Means of densities. -/
theorem mean_bounds {N : ℕ} {T V d x : ℕ → ℝ} {t r : ℝ} (hT : ∀ f, f < N → 0 ≤ T f) (hV : ∑ f ∈ range N, T f * V f = 0) (hd : ∀ f, f < N → |V f| ≤ d f)
    (ht : 0 ≤ t) (ht' : t * ∑ f ∈ range N, T f * d f ≤ 2) (h1 : a ≤ r) (h2 : r ≤ b) (hx1 : ∀ f, f < N → a ≤ x f) (hx2 : ∀ f, f < N → x f ≤ b) :
    a ≤ r - t * ∑ f ∈ range N, T f * ((V f * (r + x f) - d f * (x f - r)) / 2) ∧ r - t * ∑ f ∈ range N, T f * ((V f * (r + x f) - d f * (x f - r)) / 2) ≤ b := by
  have key : ∀ y, ∑ f ∈ range N, T f * ((V f * (r + x f) - d f * (x f - r)) / 2) =
      (∑ f ∈ range N, T f * (d f - V f) * (y - x f)) / 2 + (∑ f ∈ range N, T f * d f) / 2 * (r - y) := fun y => by
    have : ∀ f ∈ range N, T f * ((V f * (r + x f) - d f * (x f - r)) / 2) = T f * (d f - V f) * (y - x f) * (1 / 2) + T f * d f * ((r - y) / 2) + T f * V f * ((r + y) / 2) :=
      fun f _ => by ring
    rw [Finset.sum_congr rfl this, Finset.sum_add_distrib, Finset.sum_add_distrib, ← Finset.sum_mul, ← Finset.sum_mul, ← Finset.sum_mul, hV]; ring
  have hw : ∀ f, f < N → 0 ≤ T f * (d f - V f) := fun f hf => mul_nonneg (hT f hf) (by have := le_abs_self (V f); have := hd f hf; linarith)
  constructor
  · rw [key a]
    have h3 : ∑ f ∈ range N, T f * (d f - V f) * (a - x f) ≤ 0 := Finset.sum_nonpos fun f hf =>
      mul_nonpos_of_nonneg_of_nonpos (hw f (Finset.mem_range.1 hf)) (by linarith [hx1 f (Finset.mem_range.1 hf)])
    nlinarith [mul_nonneg ht (neg_nonneg.2 h3), mul_nonneg (sub_nonneg.2 ht') (sub_nonneg.2 h1)]
  · rw [key b]
    have h3 : 0 ≤ ∑ f ∈ range N, T f * (d f - V f) * (b - x f) := Finset.sum_nonneg fun f hf =>
      mul_nonneg (hw f (Finset.mem_range.1 hf)) (by linarith [hx2 f (Finset.mem_range.1 hf)])
    nlinarith [mul_nonneg ht h3, mul_nonneg (sub_nonneg.2 ht') (sub_nonneg.2 h2)]

/-- In gas at most four times lighter sound is at most twice as fast. -/
theorem carried_c_le {r x : ℝ} (hg : 1 < G.g) (hp : 0 < p) (hr : 0 < r) (hx : 0 < x) (h : r ≤ 4 * x) :
    cSide G (carried G w p x) ≤ 2 * cSide G (carried G w p r) := by
  have h1 := (carried_adm (w := w) hg hr hp).c_sq
  have h2 := (carried_adm (w := w) hg hx hp).c_sq
  have c1 := (carried_adm (w := w) hg hr hp).c_pos
  have c2 := (carried_adm (w := w) hg hx hp).c_pos
  rw [carried_p hg hr.ne'] at h1
  rw [carried_p hg hx.ne'] at h2
  change _ * r = _ at h1
  change _ * x = _ at h2
  by_contra hlt
  have hlt := not_le.1 hlt
  nlinarith [mul_pos (mul_pos c1 c1) hr, mul_pos (mul_pos c2 c2) hx, mul_pos (sub_pos.2 hlt) c2, mul_pos (sub_pos.2 hlt) c1]

end

/-! ### One step -/

section
variable {D : Disc} {w : V2} {p a b : ℝ}

theorem StreamBcs.ok (h : StreamBcs D w p a b) : D.BcOk := fun k hk => by
  obtain ⟨o, h1, -⟩ := h k hk
  rw [h1]; rfl

/-- C110: one explicit step, of any CFL number, keeps velocity and pressure of a uniform stream in all cells and only changes their densities. -/
theorem C110_keeps (h : D.G.Ok) (hV : D.viscous = false) (hg : 4 ≤ 3 * D.gas.g) (hs : D.scheme ≠ .vanLeer) (hs' : D.scheme ≠ .ausm) (hp : 0 < p) (ha : 0 < a)
    (hb : StreamBcs D w p a b) (hcn : D.G.m.nconnface = 0) (har : ∀ i, i < D.G.m.nelem → 0 < D.G.ar i) {cfl : ℝ} {u : ℕ → St} (hu : InStream D w p a b u) :
    (∃ r, (single D).norm u = some r) ∧ ∀ i, i < D.G.m.nelem → ∃ r', (single D).upd cfl u i = carried D.gas w p r' ∧
      (0 ≤ cfl → cfl ≤ 1 → D.scheme = .hllc ∨ D.scheme = .ausmPlus ∨ b ≤ 4 * a → a ≤ r' ∧ r' ≤ b) := by
  have hg1 : 1 < D.gas.g := by linarith
  have hrows : ∀ j, j < D.G.rows → Adm D.gas (u j) := fun j hj => by
    obtain ⟨r, h1, -, e⟩ := hu j (by unfold Geo.rows at hj; omega)
    rw [e]; exact carried_adm hg1 (by linarith) hp
  have hgst : ∀ k, k < D.G.m.nbface → ∃ r, a ≤ r ∧ r ≤ b ∧ ghosts D u k = carried D.gas w p r := fun k hk => by
    obtain ⟨o, h1, h2⟩ := hb k hk
    obtain ⟨r, r1, r2, r3⟩ := hu _ (h.kind (Disc.bnd_lt h hk)).1
    unfold ghosts Disc.bstate
    rw [h1, r3]
    exact stream_ghost h2 (by linarith) r1 r2
  have hgh : ∀ k, k < D.G.m.nbface → Adm D.gas (ghosts D u k) := fun k hk => by
    obtain ⟨r, h1, -, e⟩ := hgst k hk
    rw [e]; exact carried_adm hg1 (by linarith) hp
  obtain ⟨o0, hr0⟩ : ∃ o, D.residual1 u 0 = some o := ⟨_, by unfold Disc.residual1; rw [if_pos hb.ok]⟩
  constructor
  · refine ⟨Real.sqrt (energy D o0.res), ?_⟩
    simp only [single, hr0, Option.bind_some, rootOf]
    rw [if_pos]
    exact Finset.sum_nonneg fun l hl => mul_nonneg (mul_self_nonneg _) (har l (Finset.mem_range.1 hl)).le
  · intro i hi
    obtain ⟨o, ho⟩ := Geo.exists_sides h hi
    obtain ⟨hX, r, hr, e⟩ := euler_cell h hV hg hb.ok hrows hgh hi (har i hi).ne' ho cfl
    have hx : ∀ f, ∃ x, f < D.G.m.nnode i → a ≤ x ∧ x ≤ b ∧ (o f).val D.G.m u (ghosts D u) = carried D.gas w p x := fun f => by
      by_cases hf : f < D.G.m.nnode i
      · have hA := ho f hf
        cases hO : o f with
        | bnd k =>
          rw [hO] at hA
          obtain ⟨x, x1, x2, x3⟩ := hgst k hA.1
          exact ⟨x, fun _ => ⟨x1, x2, x3⟩⟩
        | cell j =>
          rw [hO] at hA
          obtain ⟨g, hG⟩ := hA
          obtain ⟨x, x1, x2, x3⟩ := hu j hG.2.1.1
          exact ⟨x, fun _ => ⟨x1, x2, x3⟩⟩
        | conn ic =>
          rw [hO] at hA
          have := hA.1
          omega
      · exact ⟨0, fun h => absurd h hf⟩
    choose x hx using hx
    obtain ⟨ri, r1, r2, r3⟩ := hu i hi
    have hri : 0 < ri := by linarith
    have hupd : (single D).upd cfl u i = euler D cfl r r.res u i := by
      simp only [single, hr]
    rw [hupd, e, r3]
    have hcl := sides_closed h hi
    set T : ℕ → ℝ := fun f => fLen (nodeA D.G.m i f) (nodeB D.G.m i f) with hT
    set N : ℕ → V2 := fun f => fNrm (nodeA D.G.m i f) (nodeB D.G.m i f) with hN
    have hcl' : ∀ d, ∑ f ∈ range (D.G.m.nnode i), T f * N f d = 0 := hcl
    have hT0 : ∀ f, f < D.G.m.nnode i → 0 < T f := fun f hf => fLen_pos (h.nz (i, f) ⟨hi, hf⟩)
    have hF : ∀ f, f < D.G.m.nnode i → Carries D.gas w p (N f) (D.scheme.flux D.gas (carried D.gas w p ri) ((o f).val D.G.m u (ghosts D u)) (N f)) := fun f hf => by
      rw [(hx f hf).2.2]
      exact C110_flux hg1 hri (by linarith [(hx f hf).1]) hp D.scheme hs hs'
    have hup := update_carried (T := T) hcl' hF (cfl / ∑ f ∈ range (D.G.m.nnode i), T f * (|Gas.varsVn (carried D.gas w p ri) (N f)| + cSide D.gas (carried D.gas w p ri))) ri
    refine ⟨_, hup, fun c0 c1 hor => ?_⟩
    have hm : ∀ f, ∃ d, f < D.G.m.nnode i → |w 0 * N f 0 + w 1 * N f 1| ≤ d ∧ d ≤ 2 * (|w 0 * N f 0 + w 1 * N f 1| + cSide D.gas (carried D.gas w p ri)) ∧
        D.scheme.flux D.gas (carried D.gas w p ri) ((o f).val D.G.m u (ghosts D u)) (N f) 0 = ((w 0 * N f 0 + w 1 * N f 1) * (ri + x f) - d * (x f - ri)) / 2 := fun f => by
      by_cases hf : f < D.G.m.nnode i
      · obtain ⟨x1, x2, x3⟩ := hx f hf
        have hx0 : 0 < x f := by linarith
        obtain ⟨d, d1, d2, d3, d4⟩ := C110_mass (w := w) (n := N f) hg1 hri hx0 hp D.scheme hs hs'
        rw [← x3] at d4
        refine ⟨d, fun _ => ⟨d1, ?_, d4⟩⟩
        have cr := (carried_adm (w := w) hg1 hri hp).c_pos
        have hab := abs_nonneg (w 0 * N f 0 + w 1 * N f 1)
        by_cases hsc : D.scheme = .hllc ∨ D.scheme = .ausmPlus
        · rw [d3 hsc]; linarith
        · have h4 : b ≤ 4 * a := by
            rcases hor with h | h | h
            · exact absurd (Or.inl h) hsc
            · exact absurd (Or.inr h) hsc
            · exact h
          have := carried_c_le (w := w) hg1 hp hri hx0 (by linarith)
          have := max_le (show cSide D.gas (carried D.gas w p ri) ≤ 2 * cSide D.gas (carried D.gas w p ri) by linarith) this
          linarith
      · exact ⟨0, fun h => absurd h hf⟩
    choose d hd using hm
    have hmass : ∑ f ∈ range (D.G.m.nnode i), T f * D.scheme.flux D.gas (carried D.gas w p ri) ((o f).val D.G.m u (ghosts D u)) (N f) 0 =
        ∑ f ∈ range (D.G.m.nnode i), T f * (((w 0 * N f 0 + w 1 * N f 1) * (ri + x f) - d f * (x f - ri)) / 2) :=
      Finset.sum_congr rfl fun f hf => by rw [(hd f (Finset.mem_range.1 hf)).2.2]
    rw [hmass]
    have hI : ∀ f ∈ range (D.G.m.nnode i), T f * (|Gas.varsVn (carried D.gas w p ri) (N f)| + cSide D.gas (carried D.gas w p ri)) =
        T f * (|w 0 * N f 0 + w 1 * N f 1| + cSide D.gas (carried D.gas w p ri)) := fun f _ => by rw [carried_vn hri.ne']
    rw [Finset.sum_congr rfl hI]
    have cr := (carried_adm (w := w) hg1 hri hp).c_pos
    have hIpos : 0 < ∑ f ∈ range (D.G.m.nnode i), T f * (|w 0 * N f 0 + w 1 * N f 1| + cSide D.gas (carried D.gas w p ri)) := by
      refine Finset.sum_pos (fun f hf => mul_pos (hT0 f (Finset.mem_range.1 hf)) (add_pos_of_nonneg_of_pos (abs_nonneg _) cr)) ?_
      have := h.conf.lin.three i hi
      exact ⟨0, Finset.mem_range.2 (by omega)⟩
    refine mean_bounds (V := fun f => w 0 * N f 0 + w 1 * N f 1) (fun f hf => (hT0 f hf).le) ?_ (fun f hf => (hd f hf).1) (div_nonneg c0 hIpos.le) ?_ r1 r2
      (fun f hf => (hx f hf).1) (fun f hf => (hx f hf).2.1)
    · have : ∀ f ∈ range (D.G.m.nnode i), T f * (w 0 * N f 0 + w 1 * N f 1) = w 0 * (T f * N f 0) + w 1 * (T f * N f 1) := fun f _ => by ring
      rw [Finset.sum_congr rfl this, Finset.sum_add_distrib, ← Finset.mul_sum, ← Finset.mul_sum, hcl', hcl']; ring
    · rw [div_mul_eq_mul_div, div_le_iff₀ hIpos]
      have : ∑ f ∈ range (D.G.m.nnode i), T f * d f ≤ 2 * ∑ f ∈ range (D.G.m.nnode i), T f * (|w 0 * N f 0 + w 1 * N f 1| + cSide D.gas (carried D.gas w p ri)) := by
        rw [Finset.mul_sum]
        refine Finset.sum_le_sum fun f hf => ?_
        have hf := Finset.mem_range.1 hf
        nlinarith [mul_le_mul_of_nonneg_left (hd f hf).2.1 (hT0 f hf).le]
      have hd0 : 0 ≤ ∑ f ∈ range (D.G.m.nnode i), T f * d f := Finset.sum_nonneg fun f hf =>
        mul_nonneg (hT0 f (Finset.mem_range.1 hf)).le (le_trans (abs_nonneg _) (hd f (Finset.mem_range.1 hf)).1)
      nlinarith [mul_le_mul_of_nonneg_right c1 hd0]

/-- C110: the densities stay within their bounds and those of the far field, for HLLC and AUSM+ whatever the densities are, for LLF, HLL and Roe if they differ by at
most a factor of four. -/
theorem C110_step (h : D.G.Ok) (hV : D.viscous = false) (hg : 4 ≤ 3 * D.gas.g) (hs : D.scheme ≠ .vanLeer) (hs' : D.scheme ≠ .ausm) (hp : 0 < p) (ha : 0 < a)
    (hab : D.scheme = .hllc ∨ D.scheme = .ausmPlus ∨ b ≤ 4 * a) (hb : StreamBcs D w p a b) (hcn : D.G.m.nconnface = 0)
    (har : ∀ i, i < D.G.m.nelem → 0 < D.G.ar i) {cfl : ℝ} (hc0 : 0 ≤ cfl) (hc1 : cfl ≤ 1) {u : ℕ → St} (hu : InStream D w p a b u) :
    (∃ r, (single D).norm u = some r) ∧ InStream D w p a b ((single D).upd cfl u) := by
  obtain ⟨h1, h2⟩ := C110_keeps h hV hg hs hs' hp ha hb hcn har (cfl := cfl) hu
  refine ⟨h1, fun i hi => ?_⟩
  obtain ⟨r, r1, r2⟩ := h2 i hi
  exact ⟨r, (r2 hc0 hc1 hab).1, (r2 hc0 hc1 hab).2, r1⟩

/-- C110, whole runs of the explicit steady solver with a CFL number from 0 to 1: velocity and pressure remain those of the stream in every cell after every step, the
densities within their bounds, and the run never ends with a numerical error. -/
theorem C110_run (h : D.G.Ok) (hV : D.viscous = false) (hg : 4 ≤ 3 * D.gas.g) (hs : D.scheme ≠ .vanLeer) (hs' : D.scheme ≠ .ausm) (hp : 0 < p) (ha : 0 < a)
    (hab : D.scheme = .hllc ∨ D.scheme = .ausmPlus ∨ b ≤ 4 * a) (hb : StreamBcs D w p a b) (hcn : D.G.m.nconnface = 0)
    (har : ∀ i, i < D.G.m.nelem → 0 < D.G.ar i) {c : Conf} (hc0 : 0 ≤ c.cflinit) (hc1 : c.cflinit ≤ 1) {u : ℕ → St} (hu : InStream D w p a b u) :
    (∀ j, ∃ m, traj forwardEuler (single D) c u j = some m ∧ InStream D w p a b m.u) ∧ ∀ k out, Solve forwardEuler (single D) c u k out → out ≠ .numErr := by
  have step := fun u (hu : InStream D w p a b u) => C110_step h hV hg hs hs' hp ha hab hb hcn har hc0 hc1 hu
  have key := fun j => traj_pos (P := single D) (good := InStream D w p a b) (c := c) step hu j
  refine ⟨key, fun k out hs => ?_⟩
  unfold Solve at hs
  split_ifs at hs with h0
  · rw [hs.2]; simp
  · obtain ⟨o, hl, ho⟩ := hs
    have : ∀ {m : Mem (ℕ → St)} {k o}, Loop (Ode.cond c) (body forwardEuler (single D) c) m k o → InStream D w p a b m.u → o ≠ none := by
      intro m k o hl
      induction hl with
      | done _ => intro _ h; cases h
      | @step s s' n o _ h2 _ ih =>
        intro hg'
        refine ih ?_
        obtain ⟨⟨r, hr⟩, hup⟩ := step _ hg'
        simp only [body, hr, Option.some.injEq] at h2
        subst h2
        exact hup
      | @throws s _ h2 =>
        intro hg'
        obtain ⟨⟨r, hr⟩, -⟩ := step _ hg'
        simp only [body, hr] at h2
        cases h2
    cases o with
    | none => exact absurd rfl (this hl hu)
    | some m =>
      rw [ho]
      simp only [forwardEuler]
      split_ifs <;> simp

end

/-- C110 on several processes: such a run ends as the run of the single process does. -/
theorem C110_several {gm : Mesh} {s : FState} {dist : ℕ → ℕ} (hc : Conforming gm) (hn : gm.nconnface = 0) (ht : gm.nbtag ≤ 4) (h : topological gm = .ok s)
    (hz : NoZeroFace gm) (hall : AllRegistered gm s dist) {n : ℕ} (hd : ∀ g, g < gm.nelem → dist g < n)
    (hmono : ∀ i j, i < j → j < gm.nelem → dist i ≤ dist j) (P : Settings) (hV : P.viscous = false) (hs : P.scheme ≠ .vanLeer) (hs' : P.scheme ≠ .ausm)
    {w : V2} {p a b : ℝ} (hp : 0 < p) (ha : 0 < a) (hab : P.scheme = .hllc ∨ P.scheme = .ausmPlus ∨ b ≤ 4 * a) (hb : StreamBcs (P.disc gm s 0) w p a b)
    (hg : 4 ≤ 3 * P.gas.g) (har : ∀ i, i < gm.nelem → 0 < (area gm i).getD 0) {u : ℕ → St} (hu : InStream (P.disc gm s 0) w p a b u)
    {loc : ℕ → ℕ → St} (hl : Represents gm s dist loc u) {c : Conf} (hc0 : 0 ≤ c.cflinit) (hc1 : c.cflinit ≤ 1) {k : ℕ} {out : Ode.Out} :
    Solve forwardEuler (several P gm s dist n) c loc k out ↔ Solve forwardEuler (single (P.disc gm s 0)) c u k out := by
  have hok : (P.disc gm s 0).G.Ok := ⟨hc, hz, h⟩
  obtain ⟨key, -⟩ := C110_run (D := P.disc gm s 0) hok hV hg hs hs' hp ha hab hb hn har hc0 hc1 hu
  have hadm : ∀ k j, j < k → ∀ m, traj forwardEuler (single (P.disc gm s 0)) c u j = some m → ∀ i, i < gm.nelem → Adm P.gas (m.u i) := by
    intro k j _ m hm' i hi
    obtain ⟨m', e, h'⟩ := key j
    rw [hm'] at e; cases e
    obtain ⟨r, r1, -, r3⟩ := h' i hi
    rw [r3]
    exact carried_adm (show 1 < P.gas.g by linarith) (by linarith) hp
  constructor
  · intro hs
    obtain ⟨k', out', hs'⟩ := (C56_terminates forwardEuler (single (P.disc gm s 0)) c u).1
    obtain ⟨-, h2, -⟩ := C88_run_partial hc hn ht h hz hall hd hmono P hb.ok hg hl hs' (hadm k')
    obtain ⟨rfl, rfl⟩ := h2 k out hs
    exact hs'
  · intro hs
    exact (C88_run_partial hc hn ht h hz hall hd hmono P hb.ok hg hl hs (hadm k)).1

/-! ### Two squares -/

/-- Air of density 1 beside air of density 4, moving obliquely: every run of LLF, HLL, HLLC, AUSM+ and Roe keeps velocity and pressure. -/
example : ∃ s, topological pair = .ok s ∧ ∀ (sch : Scheme) (c : Conf), sch ≠ .vanLeer → sch ≠ .ausm → 0 ≤ c.cflinit → c.cflinit ≤ 1 → ∀ j,
    ∃ m, traj forwardEuler (single ((airOut sch).disc pair s 0)) c (two (carried air ![1 / 4, 1 / 3] (5 / 7) 1) (carried air ![1 / 4, 1 / 3] (5 / 7) 4)) j = some m ∧
      ∀ i, i < 2 → ∃ r, 1 ≤ r ∧ r ≤ 4 ∧ m.u i = carried air ![1 / 4, 1 / 3] (5 / 7) r := by
  obtain ⟨s, hs, hf⟩ := pair_topological
  refine ⟨s, hs, fun sch c h1 h2 c0 c1 => ?_⟩
  exact (C110_run (D := (airOut sch).disc pair s 0) (a := 1) (b := 4) ⟨pair_conforming, pair_nozero, hs⟩ rfl (by show 4 ≤ 3 * air.g; norm_num [air]) h1 h2 (by norm_num)
    one_pos (Or.inr (Or.inr (by norm_num))) (fun k _ => ⟨_, rfl, trivial⟩) rfl (fun i hi => by
      show 0 < (area pair i).getD 0
      rw [pair_area hi]; norm_num) c0 c1 (fun i _ => by
      unfold two
      split_ifs
      · exact ⟨1, le_rfl, by norm_num, rfl⟩
      · exact ⟨4, by norm_num, le_rfl, rfl⟩)).1

theorem carries_of_update {G : Gas} {w n : V2} {p t r r' : ℝ} {f : St} (hg : 1 < G.g) (hr : r ≠ 0) (ht : t ≠ 0)
    (h : carried G w p r - t • (f - G.eulerFlux (carried G w p r) n) = carried G w p r') : Carries G w p n f := by
  rw [eulerFlux_eq (show carried G w p r 0 ≠ 0 from hr), carried_vn hr, carried_p hg hr, carried_dirFlux hg] at h
  have hg' : G.g - 1 ≠ 0 := by linarith
  have e0 : r - t * (f 0 - (w 0 * n 0 + w 1 * n 1) * r) = r' := congrFun h 0
  have e1 : r * w 0 - t * (f 1 - ((w 0 * n 0 + w 1 * n 1) * r * w 0 + p * n 0)) = r' * w 0 := congrFun h 1
  have e2 : r * w 1 - t * (f 2 - ((w 0 * n 0 + w 1 * n 1) * r * w 1 + p * n 1)) = r' * w 1 := congrFun h 2
  have e3 : p / (G.g - 1) + r * (w 0 * w 0 + w 1 * w 1) / 2 - t * (f 3 - ((w 0 * n 0 + w 1 * n 1) * r * ((w 0 * w 0 + w 1 * w 1) / 2) +
      G.g / (G.g - 1) * p * (w 0 * n 0 + w 1 * n 1))) = p / (G.g - 1) + r' * (w 0 * w 0 + w 1 * w 1) / 2 := congrFun h 3
  refine ⟨?_, ?_, ?_⟩
  · refine mul_left_cancel₀ ht ?_
    linear_combination w 0 * e0 - e1
  · refine mul_left_cancel₀ ht ?_
    linear_combination w 1 * e0 - e2
  · refine mul_left_cancel₀ ht ?_
    linear_combination (w 0 * w 0 + w 1 * w 1) / 2 * e0 - e3

/-- C110 fails for AUSM and van Leer's scheme: one explicit step leaves a state in the first square that does not have the velocity and pressure of the stream. -/
theorem C110_run_refuted : ∃ s, topological pair = .ok s ∧ ∀ sch : Scheme, sch = .vanLeer ∨ sch = .ausm → ∃ w : V2,
    ∀ r, (single ((airOut sch).disc pair s 0)).upd 1 (two (carried air w (5 / 7) 1) (carried air w (5 / 7) 4)) 0 ≠ carried air w (5 / 7) r := by
  obtain ⟨s, hs, hf⟩ := pair_topological
  have hg : 1 < air.g := by norm_num [air]
  have key : ∀ (sch : Scheme) (w : V2), ¬ Carries air w (5 / 7) ![1, 0] (sch.flux air (carried air w (5 / 7) 1) (carried air w (5 / 7) 4) ![1, 0]) →
      ∀ r, (single ((airOut sch).disc pair s 0)).upd 1 (two (carried air w (5 / 7) 1) (carried air w (5 / 7) 4)) 0 ≠ carried air w (5 / 7) r := fun sch w hn r h => by
    have a1 : Adm air (carried air w (5 / 7) 1) := carried_adm hg one_pos (by norm_num)
    rw [pair_step hs hf sch a1 (carried_adm hg (by norm_num) (by norm_num))] at h
    have := a1.c_pos
    exact hn (carries_of_update hg one_ne_zero (by positivity) h)
  refine ⟨s, hs, fun sch hsch => ?_⟩
  rcases hsch with rfl | rfl
  · exact ⟨![0, 0], key _ _ vanLeer_not_carries⟩
  · exact ⟨![1 / 4, 0], key _ _ ausm_not_carries⟩

/-- Why LLF, HLL and Roe need bounded density ratios: air at rest under uniform pressure beside much lighter air. One step with CFL number 1, which takes the wave speeds of the
own cell only, makes the density of the heavy air negative. -/
theorem C110_ratio_refuted : ∃ s, topological pair = .ok s ∧ ∀ sch : Scheme, sch = .llf ∨ sch = .hll ∨ sch = .roe →
    (single ((airOut sch).disc pair s 0)).upd 1 (two (carried air ![0, 0] (5 / 7) (10 ^ 24)) (carried air ![0, 0] (5 / 7) 1)) 0 0 < 0 := by
  obtain ⟨s, hs, hf⟩ := pair_topological
  have hg : 1 < air.g := by norm_num [air]
  refine ⟨s, hs, fun sch hsch => ?_⟩
  have hM : (0 : ℝ) < 10 ^ 24 := by norm_num
  have a1 : Adm air (carried air ![0, 0] (5 / 7) (10 ^ 24)) := carried_adm hg hM (by norm_num)
  have a2 : Adm air (carried air ![0, 0] (5 / 7) 1) := carried_adm hg one_pos (by norm_num)
  have c1 : cSide air (carried air ![0, 0] (5 / 7) (10 ^ 24)) = 1 / 10 ^ 12 := carried_c hg _ hM (by norm_num) (by norm_num [air])
  have c2 : cSide air (carried air ![0, 0] (5 / 7) 1) = 1 := air_one _
  have hR : (roeOf air (carried air ![0, 0] (5 / 7) (10 ^ 24)) (carried air ![0, 0] (5 / 7) 1) ![1, 0]).R = 1 / 10 ^ 12 := by
    show Real.sqrt (1 / 10 ^ 24) = _
    rw [show (1 / 10 ^ 24 : ℝ) = (1 / 10 ^ 12) ^ 2 by norm_num]
    exact Real.sqrt_sq (by norm_num)
  have hc : (roeOf air (carried air ![0, 0] (5 / 7) (10 ^ 24)) (carried air ![0, 0] (5 / 7) 1) ![1, 0]).c = 1 / 10 ^ 6 := by
    have h1 := roe_c_sq (n := ![1, 0]) a1 a2
    have h2 := roe_c_pos (n := ![1, 0]) a1 a2
    rw [roe_c_sq_arg (n := ![1, 0]) a1 a2, carried_vel hM.ne', carried_vel one_ne_zero, hR, c1, c2] at h1
    generalize (roeOf air (carried air ![0, 0] (5 / 7) (10 ^ 24)) (carried air ![0, 0] (5 / 7) 1) ![1, 0]).c = c at *
    norm_num at h1
    have h3 : (c - 1 / 10 ^ 6) * (c + 1 / 10 ^ 6) = 0 := by
      ring_nf; norm_num; linarith
    rcases mul_eq_zero.1 h3 with h | h <;> linarith
  rw [pair_step hs hf sch a1 a2, carried_vel hM.ne', c1]
  simp only [Pi.sub_apply, Pi.smul_apply, smul_eq_mul]
  rw [eulerFlux_eq (show carried air ![0, 0] (5 / 7) (10 ^ 24) 0 ≠ 0 from hM.ne'), carried_vn hM.ne', carried_dirFlux']
  rcases hsch with rfl | rfl | rfl
  · simp only [Scheme.flux]
    rw [(C110_llf hg hM one_pos).2, c1, c2]
    simp [carried]
    norm_num
  · simp only [Scheme.flux, hll]
    have hsl : slOf air (carried air ![0, 0] (5 / 7) (10 ^ 24)) (carried air ![0, 0] (5 / 7) 1) ![1, 0] = -(1 / 10 ^ 6) := by
      unfold slOf waveL
      rw [carried_vn hM.ne', (carried_roe hM one_pos).2, hc, c1]
      norm_num
    have hsr : srOf air (carried air ![0, 0] (5 / 7) (10 ^ 24)) (carried air ![0, 0] (5 / 7) 1) ![1, 0] = 1 := by
      unfold srOf waveR
      rw [carried_vn one_ne_zero, (carried_roe hM one_pos).2, hc, c2]
      norm_num
    rw [hsl, hsr, carried_vn hM.ne', carried_vn one_ne_zero]
    norm_num [hllCore, hllT1, hllT3, carried]
  · simp only [Scheme.flux]
    rw [(C110_roe hg hM one_pos (by norm_num)).2, hc]
    norm_num [harten, fixeps, carried]

end Par
end FVENS
