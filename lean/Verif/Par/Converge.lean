import Verif.Par.Carried
import Verif.Par.Limit

/-!
# Convergence of the explicit solver in a uniform stream (C114)

A stream of uniform velocity and pressure enters through far-field boundaries with one density. Whatever densities the cells start with, the explicit solver must arrive at
that density in every cell that the stream reaches.
-/

namespace FVENS
namespace Par

open Msh FV Flux Ode Lin Filter Topology
open Finset (range)

/-! ### Specification -/

/-- Speed at which the stream leaves cell `i` through its local face `f`. -/
noncomputable def outward (D : Disc) (w : V2) (i f : ℕ) : ℝ := w 0 * fNrm (nodeA D.G.m i f) (nodeB D.G.m i f) 0 + w 1 * fNrm (nodeA D.G.m i f) (nodeB D.G.m i f) 1

/-- The stream comes to the cell from a far-field boundary, through faces that it crosses from cell to cell. -/
inductive Swept (D : Disc) (w : V2) (c : St) : ℕ → Prop
  | inflow {i f k : ℕ} : i < D.G.m.nelem → f < D.G.m.nnode i → Across D.G.m (i, f) (.bnd k) → outward D w i f < 0 →
      D.bc (D.tag k) = some (.farfield c) ∨ D.bc (D.tag k) = some (.inOut c) → Swept D w c i
  | cell {i f j : ℕ} : i < D.G.m.nelem → f < D.G.m.nnode i → Across D.G.m (i, f) (.cell j) → outward D w i f < 0 → Swept D w c j → Swept D w c i

/-! ### Shrinking -/

/-- Differences that never grow in the maximum, and shrink in every cell from some step on, tend to zero. -/
theorem shrink {N : ℕ} {e : ℕ → ℕ → ℝ} (hA : ∀ k M, (∀ i, i < N → |e k i| ≤ M) → ∀ i, i < N → |e (k + 1) i| ≤ M)
    (hB : ∀ i, i < N → ∃ (K : ℕ) (θ : ℝ), 0 ≤ θ ∧ θ < 1 ∧ ∀ k M, (∀ i, i < N → |e k i| ≤ M) → ∀ l, k + K ≤ l → |e l i| ≤ θ * M) :
    ∃ (K : ℕ) (θ : ℝ), 0 ≤ θ ∧ θ < 1 ∧ ∀ k M, (∀ i, i < N → |e k i| ≤ M) → ∀ m l, k + m * K ≤ l → ∀ i, i < N → |e l i| ≤ θ ^ m * M := by
  have hall : ∀ n, n ≤ N → ∃ (K : ℕ) (θ : ℝ), 0 ≤ θ ∧ θ < 1 ∧ ∀ i, i < n → ∀ k M, (∀ i, i < N → |e k i| ≤ M) → ∀ l, k + K ≤ l → |e l i| ≤ θ * M := by
    intro n
    induction n with
    | zero => exact fun _ => ⟨0, 0, le_rfl, one_pos, fun i hi => absurd hi (Nat.not_lt_zero _)⟩
    | succ n ih =>
      intro hn
      obtain ⟨K, θ, h0, h1, h⟩ := ih (by omega)
      obtain ⟨K', θ', h0', h1', h'⟩ := hB n (by omega)
      refine ⟨max K K', max θ θ', le_max_of_le_left h0, max_lt h1 h1', fun i hi k M hM l hl => ?_⟩
      have hM0 : 0 ≤ M := le_trans (abs_nonneg _) (hM n (by omega))
      rcases Nat.lt_succ_iff_lt_or_eq.1 hi with hi | rfl
      · exact (h i hi k M hM l (by have := le_max_left K K'; omega)).trans (mul_le_mul_of_nonneg_right (le_max_left _ _) hM0)
      · exact (h' k M hM l (by have := le_max_right K K'; omega)).trans (mul_le_mul_of_nonneg_right (le_max_right _ _) hM0)
  obtain ⟨K, θ, h0, h1, h⟩ := hall N le_rfl
  refine ⟨K, θ, h0, h1, fun k M hM m => ?_⟩
  have hgrow : ∀ k M, (∀ i, i < N → |e k i| ≤ M) → ∀ l, k ≤ l → ∀ i, i < N → |e l i| ≤ M := fun k M hM l hl => by
    induction hl with
    | refl => exact hM
    | step _ ih => exact hA _ _ ih
  induction m with
  | zero =>
    intro l hl
    rw [pow_zero, one_mul]
    exact hgrow k M hM l (by omega)
  | succ m ih =>
    intro l hl i hi
    have := h i hi (k + m * K) (θ ^ m * M) (ih _ le_rfl) l (by rw [Nat.succ_mul] at hl; omega)
    rwa [← mul_assoc, ← pow_succ'] at this

/-! ### The new density as a mean -/

section
variable {D : Disc} {w : V2} {p a b : ℝ}

/-- Lighter gas has the faster sound. -/
theorem carried_c_anti {G : Gas} (hg : 1 < G.g) (hp : 0 < p) (ha : 0 < a) {r : ℝ} (h : a ≤ r) : cSide G (carried G w p r) ≤ cSide G (carried G w p a) := by
  have hr : 0 < r := by linarith
  have h1 := (carried_adm (w := w) hg hr hp).c_sq
  have h2 := (carried_adm (w := w) hg ha hp).c_sq
  have c1 := (carried_adm (w := w) hg hr hp).c_pos
  have c2 := (carried_adm (w := w) hg ha hp).c_pos
  rw [carried_p hg hr.ne'] at h1
  rw [carried_p hg ha.ne'] at h2
  change _ * r = _ at h1
  change _ * a = _ at h2
  by_contra hlt
  have hlt := not_le.1 hlt
  have h3 : cSide G (carried G w p a) * cSide G (carried G w p a) < cSide G (carried G w p r) * cSide G (carried G w p r) := mul_self_lt_mul_self c2.le hlt
  nlinarith [mul_le_mul_of_nonneg_left h (mul_self_nonneg (cSide G (carried G w p a))), mul_lt_mul_of_pos_right h3 hr]

/-- Upwind share of the neighbour across a face in the new density, for the lightest gas. -/
noncomputable def share (D : Disc) (w : V2) (p a cfl : ℝ) (i f : ℕ) : ℝ :=
  cfl * (fLen (nodeA D.G.m i f) (nodeB D.G.m i f) * -outward D w i f) /
    ∑ f ∈ range (D.G.m.nnode i), fLen (nodeA D.G.m i f) (nodeB D.G.m i f) * (|outward D w i f| + cSide D.gas (carried D.gas w p a))

/-- One explicit step in a stream: the new density is a mean of the old densities of the cell and of what lies across its faces; upwind neighbours count with at least their share. -/
theorem stream_mean (h : D.G.Ok) (hV : D.viscous = false) (hg : 4 ≤ 3 * D.gas.g) (hs : D.scheme ≠ .vanLeer) (hs' : D.scheme ≠ .ausm) (hp : 0 < p) (ha : 0 < a)
    (hab : D.scheme = .hllc ∨ D.scheme = .ausmPlus ∨ b ≤ 4 * a) (hb : D.BcOk) (hcn : D.G.m.nconnface = 0) {cfl : ℝ} (hc0 : 0 ≤ cfl) (hc1 : cfl ≤ 1)
    {u : ℕ → St} (hu : InStream D w p a b u) (hgh : ∀ k, k < D.G.m.nbface → Adm D.gas (ghosts D u k)) {i : ℕ} (hi : i < D.G.m.nelem) (har : 0 < D.G.ar i)
    {o : ℕ → Other} (ho : ∀ f, f < D.G.m.nnode i → Across D.G.m (i, f) (o f)) {x : ℕ → ℝ}
    (hx : ∀ f, f < D.G.m.nnode i → a ≤ x f ∧ x f ≤ b ∧ (o f).val D.G.m u (ghosts D u) = carried D.gas w p (x f)) {ri : ℝ} (r1 : a ≤ ri) (r2 : ri ≤ b) (r3 : u i = carried D.gas w p ri) :
    ∃ (m0 : ℝ) (m : ℕ → ℝ), 0 ≤ m0 ∧ (∀ f, f < D.G.m.nnode i → 0 ≤ m f ∧ share D w p a cfl i f ≤ m f) ∧ m0 + ∑ f ∈ range (D.G.m.nnode i), m f = 1 ∧
      (single D).upd cfl u i = carried D.gas w p (m0 * ri + ∑ f ∈ range (D.G.m.nnode i), m f * x f) := by
  have hg1 : 1 < D.gas.g := by linarith
  have hrows : ∀ j, j < D.G.rows → Adm D.gas (u j) := fun j hj => by
    obtain ⟨r, h1, -, e⟩ := hu j (by unfold Geo.rows at hj; omega)
    rw [e]; exact carried_adm hg1 (by linarith) hp
  obtain ⟨hX, r, hr, e⟩ := euler_cell h hV hg hb hrows hgh hi har.ne' ho cfl
  have hri : 0 < ri := by linarith
  have hupd : (single D).upd cfl u i = euler D cfl r r.res u i := by
    simp only [single, hr]
  rw [hupd, e, r3]
  have hcl := sides_closed h hi
  set T : ℕ → ℝ := fun f => fLen (nodeA D.G.m i f) (nodeB D.G.m i f) with hT
  set N : ℕ → V2 := fun f => fNrm (nodeA D.G.m i f) (nodeB D.G.m i f) with hN
  have hcl' : ∀ d, ∑ f ∈ range (D.G.m.nnode i), T f * N f d = 0 := hcl
  have hT0 : ∀ f, f < D.G.m.nnode i → 0 < T f := fun f hf => fLen_pos (h.nz (i, f) ⟨hi, hf⟩)
  have hF : ∀ f, f < D.G.m.nnode i → Carries D.gas w p (N f) (D.scheme.flux D.gas (carried D.gas w p ri) ((o f).val D.G.m u (ghosts D u)) (N f)) := fun f hf => by
    rw [(hx f hf).2.2]
    exact C110_flux hg1 hri (by linarith [(hx f hf).1]) hp D.scheme hs hs'
  have hup := update_carried (T := T) hcl' hF (cfl / ∑ f ∈ range (D.G.m.nnode i), T f * (|Gas.varsVn (carried D.gas w p ri) (N f)| + cSide D.gas (carried D.gas w p ri))) ri
  have cr := (carried_adm (w := w) hg1 hri hp).c_pos
  have hm : ∀ f, ∃ d, f < D.G.m.nnode i → |w 0 * N f 0 + w 1 * N f 1| ≤ d ∧ d ≤ 2 * (|w 0 * N f 0 + w 1 * N f 1| + cSide D.gas (carried D.gas w p ri)) ∧
      D.scheme.flux D.gas (carried D.gas w p ri) ((o f).val D.G.m u (ghosts D u)) (N f) 0 = ((w 0 * N f 0 + w 1 * N f 1) * (ri + x f) - d * (x f - ri)) / 2 := fun f => by
    by_cases hf : f < D.G.m.nnode i
    · obtain ⟨x1, x2, x3⟩ := hx f hf
      have hx0 : 0 < x f := by linarith
      obtain ⟨d, d1, d2, d3, d4⟩ := C110_mass (w := w) (n := N f) hg1 hri hx0 hp D.scheme hs hs'
      rw [← x3] at d4
      refine ⟨d, fun _ => ⟨d1, ?_, d4⟩⟩
      have hab' := abs_nonneg (w 0 * N f 0 + w 1 * N f 1)
      by_cases hsc : D.scheme = .hllc ∨ D.scheme = .ausmPlus
      · rw [d3 hsc]; linarith
      · have h4 : b ≤ 4 * a := by
          rcases hab with h | h | h
          · exact absurd (Or.inl h) hsc
          · exact absurd (Or.inr h) hsc
          · exact h
        have := carried_c_le (w := w) hg1 hp hri hx0 (by linarith)
        have := max_le (show cSide D.gas (carried D.gas w p ri) ≤ 2 * cSide D.gas (carried D.gas w p ri) by linarith) this
        linarith
    · exact ⟨0, fun h => absurd h hf⟩
  choose d hd using hm
  have hmass : ∑ f ∈ range (D.G.m.nnode i), T f * D.scheme.flux D.gas (carried D.gas w p ri) ((o f).val D.G.m u (ghosts D u)) (N f) 0 =
      ∑ f ∈ range (D.G.m.nnode i), T f * (((w 0 * N f 0 + w 1 * N f 1) * (ri + x f) - d f * (x f - ri)) / 2) :=
    Finset.sum_congr rfl fun f hf => by rw [(hd f (Finset.mem_range.1 hf)).2.2]
  rw [hup, hmass]
  have hI : ∀ f ∈ range (D.G.m.nnode i), T f * (|Gas.varsVn (carried D.gas w p ri) (N f)| + cSide D.gas (carried D.gas w p ri)) =
      T f * (|w 0 * N f 0 + w 1 * N f 1| + cSide D.gas (carried D.gas w p ri)) := fun f _ => by rw [carried_vn hri.ne']
  rw [Finset.sum_congr rfl hI]
  have hIpos : 0 < ∑ f ∈ range (D.G.m.nnode i), T f * (|w 0 * N f 0 + w 1 * N f 1| + cSide D.gas (carried D.gas w p ri)) := by
    refine Finset.sum_pos (fun f hf => mul_pos (hT0 f (Finset.mem_range.1 hf)) (add_pos_of_nonneg_of_pos (abs_nonneg _) cr)) ?_
    have := h.conf.lin.three i hi
    exact ⟨0, Finset.mem_range.2 (by omega)⟩
  set I := ∑ f ∈ range (D.G.m.nnode i), T f * (|w 0 * N f 0 + w 1 * N f 1| + cSide D.gas (carried D.gas w p ri)) with hId
  have hca := carried_c_anti (w := w) hg1 hp ha r1
  have hIle : I ≤ ∑ f ∈ range (D.G.m.nnode i), T f * (|outward D w i f| + cSide D.gas (carried D.gas w p a)) := by
    refine Finset.sum_le_sum fun f hf => mul_le_mul_of_nonneg_left ?_ (hT0 f (Finset.mem_range.1 hf)).le
    show |w 0 * N f 0 + w 1 * N f 1| + _ ≤ |w 0 * N f 0 + w 1 * N f 1| + _
    linarith
  have hVs : ∑ f ∈ range (D.G.m.nnode i), T f * (w 0 * N f 0 + w 1 * N f 1) = 0 := by
    have : ∀ f ∈ range (D.G.m.nnode i), T f * (w 0 * N f 0 + w 1 * N f 1) = w 0 * (T f * N f 0) + w 1 * (T f * N f 1) := fun f _ => by ring
    rw [Finset.sum_congr rfl this, Finset.sum_add_distrib, ← Finset.mul_sum, ← Finset.mul_sum, hcl', hcl']; ring
  set V : ℕ → ℝ := fun f => w 0 * N f 0 + w 1 * N f 1 with hVd
  have ht : 0 ≤ cfl / I := div_nonneg hc0 hIpos.le
  refine ⟨1 - cfl / I * ((∑ f ∈ range (D.G.m.nnode i), T f * d f) / 2), fun f => cfl / I * (T f * ((d f - V f) / 2)), ?_, fun f hf => ⟨?_, ?_⟩, ?_, ?_⟩
  · have h1 : ∑ f ∈ range (D.G.m.nnode i), T f * d f ≤ 2 * I := by
      rw [hId, Finset.mul_sum]
      refine Finset.sum_le_sum fun f hf => ?_
      have hf := Finset.mem_range.1 hf
      nlinarith [mul_le_mul_of_nonneg_left (hd f hf).2.1 (hT0 f hf).le]
    have h2 : cfl / I * ((∑ f ∈ range (D.G.m.nnode i), T f * d f) / 2) ≤ cfl / I * I := mul_le_mul_of_nonneg_left (by linarith) ht
    rw [div_mul_cancel₀ _ hIpos.ne'] at h2
    linarith
  · have := (hd f hf).1
    have := le_abs_self (V f)
    exact mul_nonneg ht (mul_nonneg (hT0 f hf).le (by linarith))
  · have h1 := (hd f hf).1
    have h2 : -V f ≤ (d f - V f) / 2 := by
      have := neg_abs_le (V f)
      have := neg_le_abs (V f)
      linarith
    have h3 : 0 ≤ (d f - V f) / 2 := by
      have := le_abs_self (V f)
      linarith
    unfold share
    show cfl * (T f * -V f) / _ ≤ cfl / I * (T f * ((d f - V f) / 2))
    rw [div_mul_eq_mul_div]
    refine (div_le_div_of_nonneg_right (mul_le_mul_of_nonneg_left (mul_le_mul_of_nonneg_left h2 (hT0 f hf).le) hc0) (hIpos.le.trans hIle)).trans ?_
    exact div_le_div_of_nonneg_left (mul_nonneg hc0 (mul_nonneg (hT0 f hf).le h3)) hIpos hIle
  · rw [← Finset.mul_sum]
    have : ∑ f ∈ range (D.G.m.nnode i), T f * ((d f - V f) / 2) = (∑ f ∈ range (D.G.m.nnode i), T f * d f) / 2 - (∑ f ∈ range (D.G.m.nnode i), T f * V f) / 2 := by
      have : ∀ f ∈ range (D.G.m.nnode i), T f * ((d f - V f) / 2) = T f * d f * (1 / 2) - T f * V f * (1 / 2) := fun f _ => by ring
      rw [Finset.sum_congr rfl this, Finset.sum_sub_distrib, ← Finset.sum_mul, ← Finset.sum_mul]; ring
    rw [this, hVs]; ring
  · congr 1
    have e1 : ∀ f ∈ range (D.G.m.nnode i), T f * (((w 0 * N f 0 + w 1 * N f 1) * (ri + x f) - d f * (x f - ri)) / 2) =
        T f * V f * (ri / 1) - T f * ((d f - V f) / 2) * x f + T f * d f * (ri / 2) - T f * V f * (ri / 2) := fun f _ => by simp only [hVd]; ring
    have e2 : ∑ f ∈ range (D.G.m.nnode i), cfl / I * (T f * ((d f - V f) / 2)) * x f = cfl / I * ∑ f ∈ range (D.G.m.nnode i), T f * ((d f - V f) / 2) * x f := by
      rw [Finset.mul_sum]
      exact Finset.sum_congr rfl fun f _ => by ring
    rw [Finset.sum_congr rfl e1, e2, Finset.sum_sub_distrib, Finset.sum_add_distrib, Finset.sum_sub_distrib, ← Finset.sum_mul, ← Finset.sum_mul, ← Finset.sum_mul, hVs]
    ring

end

/-- Behind the boundary faces there is the far field's density or the cell's own. -/
theorem fresh_or_own {G : Gas} {w : V2} {p ρ : ℝ} {n : V2} {o : BC.Obj} (ho : StreamBc G w p ρ ρ n o) {r : ℝ} (h0 : r ≠ 0) :
    o.ghost G (carried G w p r) n = carried G w p ρ ∨ o.ghost G (carried G w p r) n = carried G w p r := by
  cases o with
  | extrapolation => exact Or.inr rfl
  | farfield c =>
    obtain ⟨r', h1, h2, h3⟩ := ho
    obtain rfl : r' = ρ := le_antisymm h2 h1
    exact Or.inl h3
  | inOut c =>
    obtain ⟨hp, r', h1, h2, h3⟩ := ho
    obtain rfl : r' = ρ := le_antisymm h2 h1
    simp only [BC.Obj.ghost, BC.inOut]
    split_ifs
    · exact Or.inl h3
    · refine Or.inr ?_
      rw [← hp]
      funext i
      fin_cases i <;> simp [carried, Gas.energyOfP, dot, mom]
      field_simp
    · exact Or.inr rfl
  | slip =>
    obtain ⟨x, h1, h2, h3⟩ := stream_ghost (a := r) (b := r) (o := .slip) (G := G) (p := p) ho h0 le_rfl le_rfl
    obtain rfl : x = r := le_antisymm h2 h1
    exact Or.inr h3
  | adiabatic tv =>
    obtain ⟨x, h1, h2, h3⟩ := stream_ghost (a := r) (b := r) (o := .adiabatic tv) (G := G) (p := p) ho h0 le_rfl le_rfl
    obtain rfl : x = r := le_antisymm h2 h1
    exact Or.inr h3
  | inflow _ _ => exact ho.elim
  | isothermal _ _ => exact ho.elim

theorem StreamBcs.mono {D : Disc} {w : V2} {p a b ρ : ℝ} (h1 : a ≤ ρ) (h2 : ρ ≤ b) (h : StreamBcs D w p ρ ρ) : StreamBcs D w p a b := fun k hk => by
  obtain ⟨o, ho, hs⟩ := h k hk
  refine ⟨o, ho, ?_⟩
  cases o with
  | extrapolation => trivial
  | farfield c =>
    obtain ⟨r, r1, r2, r3⟩ := hs
    exact ⟨r, by linarith, by linarith, r3⟩
  | inOut c =>
    obtain ⟨hp, r, r1, r2, r3⟩ := hs
    exact ⟨hp, r, by linarith, by linarith, r3⟩
  | slip => exact hs
  | adiabatic tv => exact hs
  | inflow _ _ => exact hs.elim
  | isothermal _ _ => exact hs.elim

/-- A mean is no further from `ρ` than its parts, and nearer if a part is. -/
theorem mean_near {N : ℕ} {m x : ℕ → ℝ} {m0 r ρ M : ℝ} (h0 : 0 ≤ m0) (hm : ∀ f, f < N → 0 ≤ m f) (h1 : m0 + ∑ f ∈ range N, m f = 1) (hr : |r - ρ| ≤ M) (hx : ∀ f, f < N → |x f - ρ| ≤ M) :
    |m0 * r + ∑ f ∈ range N, m f * x f - ρ| ≤ M ∧ ∀ f, f < N → ∀ s, 0 ≤ s → s ≤ m f → |m0 * r + ∑ f ∈ range N, m f * x f - ρ| ≤ (1 - s) * M + s * |x f - ρ| := by
  have e : m0 * r + ∑ f ∈ range N, m f * x f - ρ = m0 * (r - ρ) + ∑ f ∈ range N, m f * (x f - ρ) := by
    have : ∑ f ∈ range N, m f * (x f - ρ) = ∑ f ∈ range N, m f * x f - (∑ f ∈ range N, m f) * ρ := by
      rw [Finset.sum_mul, ← Finset.sum_sub_distrib]
      exact Finset.sum_congr rfl fun f _ => by ring
    rw [this]
    linear_combination ρ * h1
  have hb : |m0 * (r - ρ) + ∑ f ∈ range N, m f * (x f - ρ)| ≤ m0 * M + ∑ f ∈ range N, m f * |x f - ρ| := by
    refine (abs_add_le _ _).trans (add_le_add ?_ ((Finset.abs_sum_le_sum_abs _ _).trans (Finset.sum_le_sum fun f hf => ?_)))
    · rw [abs_mul, abs_of_nonneg h0]
      exact mul_le_mul_of_nonneg_left hr h0
    · rw [abs_mul, abs_of_nonneg (hm f (Finset.mem_range.1 hf))]
  rw [e]
  constructor
  · refine hb.trans ?_
    have : ∑ f ∈ range N, m f * |x f - ρ| ≤ (∑ f ∈ range N, m f) * M := by
      rw [Finset.sum_mul]
      exact Finset.sum_le_sum fun f hf => mul_le_mul_of_nonneg_left (hx f (Finset.mem_range.1 hf)) (hm f (Finset.mem_range.1 hf))
    calc m0 * M + ∑ f ∈ range N, m f * |x f - ρ| ≤ m0 * M + (∑ f ∈ range N, m f) * M := by linarith
      _ = M := by rw [← add_mul, h1, one_mul]
  · intro f hf s hs hsm
    refine hb.trans ?_
    have h2 : ∑ f' ∈ range N, m f' * |x f' - ρ| ≤ (∑ f' ∈ range N, m f') * M - m f * (M - |x f - ρ|) := by
      have : ∑ f' ∈ range N, m f' * (M - |x f' - ρ|) ≥ m f * (M - |x f - ρ|) :=
        Finset.single_le_sum (f := fun f' => m f' * (M - |x f' - ρ|)) (fun f' hf' => mul_nonneg (hm f' (Finset.mem_range.1 hf')) (sub_nonneg.2 (hx f' (Finset.mem_range.1 hf')))) (Finset.mem_range.2 hf)
      have e2 : ∑ f' ∈ range N, m f' * (M - |x f' - ρ|) = (∑ f' ∈ range N, m f') * M - ∑ f' ∈ range N, m f' * |x f' - ρ| := by
        rw [Finset.sum_mul, ← Finset.sum_sub_distrib]
        exact Finset.sum_congr rfl fun f _ => by ring
      linarith
    have h3 : s * (M - |x f - ρ|) ≤ m f * (M - |x f - ρ|) := mul_le_mul_of_nonneg_right hsm (sub_nonneg.2 (hx f hf))
    have h4 : m0 * M + (∑ f ∈ range N, m f) * M = M := by rw [← add_mul, h1, one_mul]
    linarith

/-! ### Convergence -/

section
variable {D : Disc} {w : V2} {p a b ρ : ℝ}

/-- One step, for a neighbour that the stream comes from. -/
theorem stream_step (h : D.G.Ok) (hV : D.viscous = false) (hg : 4 ≤ 3 * D.gas.g) (hs : D.scheme ≠ .vanLeer) (hs' : D.scheme ≠ .ausm) (hp : 0 < p) (ha : 0 < a)
    (h1 : a ≤ ρ) (h2 : ρ ≤ b) (hab : D.scheme = .hllc ∨ D.scheme = .ausmPlus ∨ b ≤ 4 * a) (hb : StreamBcs D w p ρ ρ) (hcn : D.G.m.nconnface = 0)
    (har : ∀ i, i < D.G.m.nelem → 0 < D.G.ar i) {cfl : ℝ} (hc0 : 0 ≤ cfl) (hc1 : cfl ≤ 1) {u : ℕ → St} (hu : InStream D w p a b u) {M : ℝ}
    (hM : ∀ i, i < D.G.m.nelem → |u i 0 - ρ| ≤ M) {i : ℕ} (hi : i < D.G.m.nelem) :
    |(single D).upd cfl u i 0 - ρ| ≤ M ∧ ∀ f, f < D.G.m.nnode i → outward D w i f ≤ 0 → ∀ o1 : Other, Across D.G.m (i, f) o1 →
      |(single D).upd cfl u i 0 - ρ| ≤ (1 - share D w p a cfl i f) * M + share D w p a cfl i f * |o1.val D.G.m u (ghosts D u) 0 - ρ| := by
  have hg1 : 1 < D.gas.g := by linarith
  have hgst : ∀ k, k < D.G.m.nbface → ghosts D u k = carried D.gas w p ρ ∨ ghosts D u k = u (D.G.face k).left := fun k hk => by
    obtain ⟨o, o1, o2⟩ := hb k hk
    obtain ⟨r, r1, r2, r3⟩ := hu _ (h.kind (Disc.bnd_lt h hk)).1
    unfold ghosts Disc.bstate
    rw [o1, r3]
    exact fresh_or_own o2 (by linarith)
  have hleft : ∀ k, k < D.G.m.nbface → (D.G.face k).left < D.G.m.nelem := fun k hk => (h.kind (Disc.bnd_lt h hk)).1
  have hgst' : ∀ k, k < D.G.m.nbface → ∃ r, a ≤ r ∧ r ≤ b ∧ ghosts D u k = carried D.gas w p r := fun k hk => by
    rcases hgst k hk with e | e
    · exact ⟨ρ, h1, h2, e⟩
    · rw [e]; exact hu _ (hleft k hk)
  have hM0 : 0 ≤ M := le_trans (abs_nonneg _) (hM i hi)
  have hgM : ∀ k, k < D.G.m.nbface → |ghosts D u k 0 - ρ| ≤ M := fun k hk => by
    rcases hgst k hk with e | e
    · rw [e]; show |ρ - ρ| ≤ M; simpa using hM0
    · rw [e]; exact hM _ (hleft k hk)
  have hgh : ∀ k, k < D.G.m.nbface → Adm D.gas (ghosts D u k) := fun k hk => by
    obtain ⟨r, h1, -, e⟩ := hgst' k hk
    rw [e]; exact carried_adm hg1 (by linarith) hp
  have side : ∀ (o : Other) f, Across D.G.m (i, f) o → (∃ x, a ≤ x ∧ x ≤ b ∧ o.val D.G.m u (ghosts D u) = carried D.gas w p x) ∧ |o.val D.G.m u (ghosts D u) 0 - ρ| ≤ M := fun o f hA => by
    cases o with
    | bnd k => exact ⟨hgst' k hA.1, hgM k hA.1⟩
    | cell j =>
      obtain ⟨g, hG⟩ := hA
      exact ⟨hu j hG.2.1.1, hM j hG.2.1.1⟩
    | conn ic =>
      have := hA.1
      omega
  obtain ⟨ri, r1, r2, r3⟩ := hu i hi
  have hri : |ri - ρ| ≤ M := by
    have := hM i hi
    rw [r3] at this
    exact this
  -- for any choice of the neighbours
  have fam : ∀ o : ℕ → Other, (∀ f, f < D.G.m.nnode i → Across D.G.m (i, f) (o f)) → |(single D).upd cfl u i 0 - ρ| ≤ M ∧ ∀ f, f < D.G.m.nnode i → outward D w i f ≤ 0 →
      |(single D).upd cfl u i 0 - ρ| ≤ (1 - share D w p a cfl i f) * M + share D w p a cfl i f * |(o f).val D.G.m u (ghosts D u) 0 - ρ| := fun o ho => by
    obtain ⟨m0, m, m1, m2, m3, m4⟩ := stream_mean h hV hg hs hs' hp ha hab hb.ok hcn hc0 hc1 hu hgh hi (har i hi) ho
      (x := fun f => (o f).val D.G.m u (ghosts D u) 0) (fun f hf => by
        obtain ⟨⟨x, x1, x2, x3⟩, -⟩ := side _ f (ho f hf)
        rw [x3]
        exact ⟨x1, x2, rfl⟩) r1 r2 r3
    obtain ⟨n1, n2⟩ := mean_near m1 (fun f hf => (m2 f hf).1) m3 hri (fun f hf => (side _ f (ho f hf)).2)
    rw [m4]
    refine ⟨n1, fun f hf hn => n2 f hf _ ?_ (m2 f hf).2⟩
    have hca := (carried_adm (w := w) hg1 ha hp).c_pos
    refine div_nonneg (mul_nonneg hc0 (mul_nonneg (fLen_pos (h.nz (i, f) ⟨hi, hf⟩)).le (by linarith))) (Finset.sum_nonneg fun f hf => ?_)
    exact mul_nonneg (fLen_pos (h.nz (i, f) ⟨hi, Finset.mem_range.1 hf⟩)).le (add_nonneg (abs_nonneg _) hca.le)
  obtain ⟨o, ho⟩ := Geo.exists_sides h hi
  refine ⟨(fam o ho).1, fun f hf hn o1 ho1 => ?_⟩
  have := (fam (Function.update o f o1) fun f' hf' => by
    by_cases e : f' = f
    · rw [e, Function.update_self]; exact ho1
    · rw [Function.update_of_ne e]; exact ho f' hf').2 f hf hn
  rwa [Function.update_self] at this

theorem share_pos (h : D.G.Ok) (hg : 1 < D.gas.g) (hp : 0 < p) (ha : 0 < a) {cfl : ℝ} (hc0 : 0 < cfl) {i f : ℕ} (hi : i < D.G.m.nelem) (hf : f < D.G.m.nnode i)
    (hn : outward D w i f < 0) : 0 < share D w p a cfl i f := by
  have hca := (carried_adm (w := w) hg ha hp).c_pos
  refine div_pos (mul_pos hc0 (mul_pos (fLen_pos (h.nz (i, f) ⟨hi, hf⟩)) (by linarith))) (Finset.sum_pos (fun f hf => ?_) ⟨f, Finset.mem_range.2 hf⟩)
  exact mul_pos (fLen_pos (h.nz (i, f) ⟨hi, Finset.mem_range.1 hf⟩)) (add_pos_of_nonneg_of_pos (abs_nonneg _) hca)

/-- What enters through the face of a swept cell is the far field. -/
theorem inflow_ghost (h : D.G.Ok) (hg : 1 < D.gas.g) (hp : 0 < p) {u : ℕ → St} {i f k : ℕ} (hi : i < D.G.m.nelem) (hf : f < D.G.m.nnode i) (hA : Across D.G.m (i, f) (.bnd k))
    {r : ℝ} (hr : 0 < r) (hu : u i = carried D.gas w p r) (hn : outward D w i f < 0) {c : St} (hc : D.bc (D.tag k) = some (.farfield c) ∨ D.bc (D.tag k) = some (.inOut c)) :
    ghosts D u k = c := by
  obtain ⟨k', hk', -, hs⟩ := side_exists h ⟨hi, hf⟩ hA
  obtain ⟨rfl, -, hface⟩ := hs
  have hl : (D.G.face k').left = i := by rw [hface]
  have hN : D.G.nrm k' = fNrm (nodeA D.G.m i f) (nodeB D.G.m i f) := by unfold Geo.nrm; rw [hface]; rfl
  unfold ghosts Disc.bstate
  rcases hc with e | e
  · rw [e]; rfl
  · rw [e, hl, hu, hN]
    have hc := Disc.soundSpeed_pos (carried_adm (w := w) hg hr hp)
    have hm : BC.machN D.gas (carried D.gas w p r) (fNrm (nodeA D.G.m i f) (nodeB D.G.m i f)) ≤ 0 := by
      have e1 : BC.machN D.gas (carried D.gas w p r) (fNrm (nodeA D.G.m i f) (nodeB D.G.m i f)) = outward D w i f / D.gas.soundSpeedC (carried D.gas w p r) := by
        unfold BC.machN outward
        congr 1
        rw [div_eq_iff (show carried D.gas w p r 0 ≠ 0 from hr.ne')]
        simp [dot, mom, carried]
        ring
      rw [e1]
      exact (div_neg_of_neg_of_pos hn hc).le
    show BC.inOut D.gas c _ _ = c
    unfold BC.inOut
    rw [if_pos hm]

/-- The differences of the density from the far field's after `j` steps. -/
theorem stream_shrinks (h : D.G.Ok) (hV : D.viscous = false) (hg : 4 ≤ 3 * D.gas.g) (hs : D.scheme ≠ .vanLeer) (hs' : D.scheme ≠ .ausm) (hp : 0 < p) (ha : 0 < a)
    (h1 : a ≤ ρ) (h2 : ρ ≤ b) (hab : D.scheme = .hllc ∨ D.scheme = .ausmPlus ∨ b ≤ 4 * a) (hb : StreamBcs D w p ρ ρ) (hcn : D.G.m.nconnface = 0)
    (har : ∀ i, i < D.G.m.nelem → 0 < D.G.ar i) (hsw : ∀ i, i < D.G.m.nelem → Swept D w (carried D.gas w p ρ) i) {cfl : ℝ} (hc0 : 0 < cfl) (hc1 : cfl ≤ 1)
    {s : ℕ → ℕ → St} (hu : ∀ j, InStream D w p a b (s j)) (hst : ∀ j, s (j + 1) = (single D).upd cfl (s j)) :
    ∃ (K : ℕ) (θ : ℝ), 0 ≤ θ ∧ θ < 1 ∧ ∀ k M, (∀ i, i < D.G.m.nelem → |s k i 0 - ρ| ≤ M) → ∀ m l, k + m * K ≤ l → ∀ i, i < D.G.m.nelem → |s l i 0 - ρ| ≤ θ ^ m * M := by
  have hg1 : 1 < D.gas.g := by linarith
  have hstep := fun j M hM i hi => stream_step h hV hg hs hs' hp ha h1 h2 hab hb hcn har hc0.le hc1 (hu j) (M := M) hM (i := i) hi
  have hA : ∀ k M, (∀ i, i < D.G.m.nelem → |s k i 0 - ρ| ≤ M) → ∀ i, i < D.G.m.nelem → |s (k + 1) i 0 - ρ| ≤ M := fun k M hM i hi => by
    rw [hst]; exact (hstep k M hM i hi).1
  have hgrow : ∀ k M, (∀ i, i < D.G.m.nelem → |s k i 0 - ρ| ≤ M) → ∀ l, k ≤ l → ∀ i, i < D.G.m.nelem → |s l i 0 - ρ| ≤ M := fun k M hM l hl => by
    induction hl with
    | refl => exact hM
    | step _ ih => exact hA _ _ ih
  have hle : ∀ i f, i < D.G.m.nelem → f < D.G.m.nnode i → outward D w i f < 0 → share D w p a cfl i f ≤ 1 := fun i f hi hf hn => by
    have hca := (carried_adm (w := w) hg1 ha hp).c_pos
    have hT : ∀ f, f < D.G.m.nnode i → 0 < fLen (nodeA D.G.m i f) (nodeB D.G.m i f) := fun f hf => fLen_pos (h.nz (i, f) ⟨hi, hf⟩)
    have hnn : ∀ f ∈ range (D.G.m.nnode i), 0 ≤ fLen (nodeA D.G.m i f) (nodeB D.G.m i f) * (|outward D w i f| + cSide D.gas (carried D.gas w p a)) := fun f hf =>
      mul_nonneg (hT f (Finset.mem_range.1 hf)).le (add_nonneg (abs_nonneg _) hca.le)
    have h3 := Finset.single_le_sum hnn (Finset.mem_range.2 hf)
    have h4 : fLen (nodeA D.G.m i f) (nodeB D.G.m i f) * -outward D w i f ≤ fLen (nodeA D.G.m i f) (nodeB D.G.m i f) * (|outward D w i f| + cSide D.gas (carried D.gas w p a)) :=
      mul_le_mul_of_nonneg_left (by have := neg_le_abs (outward D w i f); linarith) (hT f hf).le
    have h5 : 0 ≤ fLen (nodeA D.G.m i f) (nodeB D.G.m i f) * -outward D w i f := mul_nonneg (hT f hf).le (by linarith)
    unfold share
    refine div_le_one_of_le₀ ?_ (Finset.sum_nonneg hnn)
    nlinarith
  refine shrink (e := fun k i => s k i 0 - ρ) hA fun i hi => ?_
  have hsi := hsw i hi
  clear hi
  induction hsi with
  | @inflow i f k hi hf hAc hn hbc =>
    have hsp := share_pos h hg1 hp ha hc0 hi hf hn
    refine ⟨1, 1 - share D w p a cfl i f, by have := hle i f hi hf hn; linarith, by linarith, fun k0 M hM l hl => ?_⟩
    obtain ⟨l, rfl⟩ : ∃ n, l = n + 1 := ⟨l - 1, by omega⟩
    have hM' := hgrow k0 M hM l (by omega)
    obtain ⟨r, r1, -, r3⟩ := hu l i hi
    have := (hstep l M hM' i hi).2 f hf hn.le _ hAc
    rw [show (Other.bnd k).val D.G.m (s l) (ghosts D (s l)) = carried D.gas w p ρ from inflow_ghost h hg1 hp hi hf hAc (by linarith) r3 hn hbc,
      show carried D.gas w p ρ 0 - ρ = 0 from sub_self ρ, abs_zero, mul_zero, add_zero] at this
    rw [hst]; exact this
  | @cell i f j hi hf hAc hn _ ih =>
    obtain ⟨K, θ, t0, t1, ih⟩ := ih
    have hsp := share_pos h hg1 hp ha hc0 hi hf hn
    have hsl := hle i f hi hf hn
    refine ⟨K + 1, 1 - share D w p a cfl i f + share D w p a cfl i f * θ, by nlinarith, by nlinarith, fun k0 M hM l hl => ?_⟩
    obtain ⟨l, rfl⟩ : ∃ n, l = n + 1 := ⟨l - 1, by omega⟩
    have hM' := hgrow k0 M hM l (by omega)
    have := (hstep l M hM' i hi).2 f hf hn.le _ hAc
    have h3 : |s l j 0 - ρ| ≤ θ * M := ih k0 M hM l (by omega)
    have h4 := mul_le_mul_of_nonneg_left h3 hsp.le
    show |s (l + 1) i 0 - ρ| ≤ _
    rw [hst]
    refine this.trans ?_
    show _ + _ * |s l j 0 - ρ| ≤ _
    linarith

/-- C114: a stream of velocity `w`, pressure `p` and density `ρ` enters through far-field boundaries, leaves through such or extrapolation boundaries and slides along slip
walls. The cells start with that velocity and pressure and any densities from `a` to `b`, and the stream sweeps through every cell. Then every run of the explicit solver with a
CFL number in (0,1] tends to the uniform stream in all cells, and the largest difference shrinks at least geometrically. -/
theorem C114_converges (h : D.G.Ok) (hV : D.viscous = false) (hg : 4 ≤ 3 * D.gas.g) (hs : D.scheme ≠ .vanLeer) (hs' : D.scheme ≠ .ausm) (hp : 0 < p) (ha : 0 < a)
    (h1 : a ≤ ρ) (h2 : ρ ≤ b) (hab : D.scheme = .hllc ∨ D.scheme = .ausmPlus ∨ b ≤ 4 * a) (hb : StreamBcs D w p ρ ρ) (hcn : D.G.m.nconnface = 0)
    (har : ∀ i, i < D.G.m.nelem → 0 < D.G.ar i) (hsw : ∀ i, i < D.G.m.nelem → Swept D w (carried D.gas w p ρ) i) {c : Conf} (hc0 : 0 < c.cflinit) (hc1 : c.cflinit ≤ 1)
    {u : ℕ → St} (hu : InStream D w p a b u) :
    ∃ s : ℕ → ℕ → St, (∀ j, StateAt forwardEuler (single D) c u j (s j)) ∧ (∀ j, InStream D w p a b (s j)) ∧
      (∃ (K : ℕ) (θ : ℝ), 0 ≤ θ ∧ θ < 1 ∧ ∀ k M, (∀ i, i < D.G.m.nelem → |s k i 0 - ρ| ≤ M) → ∀ m i, i < D.G.m.nelem → |s (k + m * K) i 0 - ρ| ≤ θ ^ m * M) ∧
      ∀ i, i < D.G.m.nelem → Tendsto (fun j => s j i) atTop (𝓝 (carried D.gas w p ρ)) := by
  obtain ⟨key, -⟩ := C110_run h hV hg hs hs' hp ha hab (hb.mono h1 h2) hcn har hc0.le hc1 hu
  choose m hm hin using key
  have hS : ∀ j, StateAt forwardEuler (single D) c u j (m j).u := fun j => ⟨m j, hm j, rfl⟩
  obtain ⟨K, θ, t0, t1, hk⟩ := stream_shrinks h hV hg hs hs' hp ha h1 h2 hab hb hcn har hsw hc0 hc1 hin (traj_upd hS)
  refine ⟨fun j => (m j).u, hS, hin, ⟨K, θ, t0, t1, fun k M hM n i hi => hk k M hM n _ le_rfl i hi⟩, fun i hi => ?_⟩
  have hM : ∀ i, i < D.G.m.nelem → |(m 0).u i 0 - ρ| ≤ b - a := fun i hi => by
    obtain ⟨r, r1, r2, r3⟩ := hin 0 i hi
    rw [r3]
    show |r - ρ| ≤ b - a
    rw [abs_le]
    constructor <;> linarith
  have hrho : Tendsto (fun j => (m j).u i 0) atTop (𝓝 ρ) := by
    rw [Metric.tendsto_atTop]
    intro ε hε
    have hp0 := (tendsto_pow_atTop_nhds_zero_of_lt_one t0 t1).mul_const (b - a)
    rw [zero_mul] at hp0
    obtain ⟨n, hn⟩ := (hp0.eventually (gt_mem_nhds hε)).exists
    refine ⟨0 + n * K, fun l hl => ?_⟩
    rw [Real.dist_eq]
    exact lt_of_le_of_lt (hk 0 _ hM n l hl i hi) hn
  have e : (fun j => (m j).u i) = fun j => carried D.gas w p ((m j).u i 0) := by
    funext j
    obtain ⟨r, -, -, r3⟩ := hin j i hi
    rw [r3]; rfl
  have hcont : Continuous fun r => carried D.gas w p r := by
    refine continuous_pi fun v => ?_
    fin_cases v <;> simp [carried] <;> fun_prop
  show Tendsto (fun j => (m j).u i) atTop _
  rw [e]
  exact (hcont.tendsto ρ).comp hrho

/-- The uniform stream, with the unused rows of the run. -/
noncomputable def final (D : Disc) (w : V2) (p ρ : ℝ) (u : ℕ → St) (i : ℕ) : St := if i < D.G.m.nelem then carried D.gas w p ρ else u i

theorem final_regular (h : D.G.Ok) (hg : 1 < D.gas.g) (hp : 0 < p) (hρ : 0 < ρ) (hb : StreamBcs D w p ρ ρ) (hcn : D.G.m.nconnface = 0) (u : ℕ → St) : Tame D (final D w p ρ u) := by
  have hadm := carried_adm (w := w) hg hρ hp
  have hcell : ∀ i, i < D.G.m.nelem → final D w p ρ u i = carried D.gas w p ρ := fun i hi => if_pos hi
  have hleft : ∀ k, k < D.G.m.nbface → final D w p ρ u (D.G.face k).left = carried D.gas w p ρ := fun k hk => hcell _ (h.kind (Disc.bnd_lt h hk)).1
  refine ⟨fun i hi => ?_, fun k hk => ?_, fun k hk => ?_⟩
  · rw [hcell i (by unfold Geo.rows at hi; omega)]; exact hadm
  · obtain ⟨o, o1, o2⟩ := hb k hk
    rw [hleft k hk]
    unfold Disc.bstate
    rw [o1]
    rcases fresh_or_own o2 hρ.ne' with e | e
    · show Adm D.gas (o.ghost D.gas (carried D.gas w p ρ) (D.G.nrm k))
      rw [e]; exact hadm
    · show Adm D.gas (o.ghost D.gas (carried D.gas w p ρ) (D.G.nrm k))
      rw [e]; exact hadm
  · obtain ⟨o, o1, o2⟩ := hb k hk
    rw [hleft k hk]
    have e : D.bstate k = fun q => o.ghost D.gas q (D.G.nrm k) := by
      funext q
      unfold Disc.bstate
      rw [o1]
    rw [e]
    cases o with
    | inOut c =>
      obtain ⟨hpf, r, r1, r2, r3⟩ := o2
      obtain rfl : r = ρ := le_antisymm r2 r1
      have hpr : D.gas.pressure (carried D.gas w p r) = p := by rw [← varsP_eq (show carried D.gas w p r 0 ≠ 0 from hρ.ne')]; exact carried_p hg hρ.ne'
      refine (C113_inOut_iff hadm (Disc.nrm_unit h (Disc.bnd_lt h hk))).2 ⟨fun _ => ?_, fun _ => by rw [hpr, hpf]⟩
      rw [r3]
      funext v
      unfold outState
      rw [← hpf]
      fin_cases v <;> simp [carried]
      field_simp
    | extrapolation => exact C113_ghost _ (o := .extrapolation) trivial hρ _
    | farfield c => exact C113_ghost _ (o := .farfield c) trivial hρ _
    | slip => exact C113_ghost _ (o := .slip) trivial hρ _
    | adiabatic tv => exact C113_ghost _ (o := .adiabatic tv) trivial hρ _
    | inflow _ _ => exact o2.elim
    | isothermal _ _ => exact o2.elim

/-- C114: such a run is reported as converged, for every tolerance between 0 and 1, if enough iterations are allowed. -/
theorem C114_reported (h : D.G.Ok) (hV : D.viscous = false) (hD : D.GasOk) (hg : 4 ≤ 3 * D.gas.g) (hs : D.scheme ≠ .vanLeer) (hs' : D.scheme ≠ .ausm) (hp : 0 < p) (ha : 0 < a)
    (h1 : a ≤ ρ) (h2 : ρ ≤ b) (hab : D.scheme = .hllc ∨ D.scheme = .ausmPlus ∨ b ≤ 4 * a) (hb : StreamBcs D w p ρ ρ) (hcn : D.G.m.nconnface = 0)
    (har : ∀ i, i < D.G.m.nelem → 0 < D.G.ar i) (hsw : ∀ i, i < D.G.m.nelem → Swept D w (carried D.gas w p ρ) i) {c : Conf} (hc0 : 0 < c.cflinit) (hc1 : c.cflinit ≤ 1)
    (ht0 : 0 < c.tol) (ht1 : c.tol < 1) {u : ℕ → St} (hu : InStream D w p a b u) :
    ∃ N : ℕ, ∀ M : ℤ, N < M → ∃ n, n ≤ N ∧ Solve forwardEuler (single D) { c with maxiter := M } u n .ok := by
  obtain ⟨s, hS, -, -, hlim⟩ := C114_converges h hV hg hs hs' hp ha h1 h2 hab hb hcn har hsw hc0 hc1 hu
  refine C113_reported h hD (fun _ => hg) hb.ok (final_regular h (by linarith) hp (by linarith) hb hcn u) har hc0.ne' ht0 ht1 hS fun i => ?_
  unfold final
  split_ifs with hi
  · exact hlim i hi
  · have : ∀ j, s j i = u i := fun j => by
      induction j with
      | zero =>
        obtain ⟨m, m1, m2⟩ := hS 0
        cases m1
        rw [← m2]; rfl
      | succ j ih =>
        rw [traj_upd hS j, ← ih]
        obtain ⟨o, ho⟩ : ∃ o, D.residual1 (s j) 0 = some o := ⟨_, by unfold Disc.residual1; rw [if_pos hb.ok]⟩
        rw [single_upd ho]
        unfold euler
        rw [if_neg hi]
    simp only [this]
    exact tendsto_const_nhds

/-- C114: no other steady state has the velocity and the pressure of the stream. -/
theorem C114_unique (h : D.G.Ok) (hV : D.viscous = false) (hg : 4 ≤ 3 * D.gas.g) (hs : D.scheme ≠ .vanLeer) (hs' : D.scheme ≠ .ausm) (hp : 0 < p) (ha : 0 < a)
    (h1 : a ≤ ρ) (h2 : ρ ≤ b) (hab : D.scheme = .hllc ∨ D.scheme = .ausmPlus ∨ b ≤ 4 * a) (hb : StreamBcs D w p ρ ρ) (hcn : D.G.m.nconnface = 0)
    (har : ∀ i, i < D.G.m.nelem → 0 < D.G.ar i) (hsw : ∀ i, i < D.G.m.nelem → Swept D w (carried D.gas w p ρ) i)
    {u : ℕ → St} (hu : InStream D w p a b u) (hst : IsSteady D u) : ∀ i, i < D.G.m.nelem → u i = carried D.gas w p ρ := by
  intro i hi
  obtain ⟨s, hS, -, -, hlim⟩ := C114_converges h hV hg hs hs' hp ha h1 h2 hab hb hcn har hsw (c := ⟨1, 1, 1, 1⟩) one_pos le_rfl hu
  have : ∀ j, s j = u := fun j => by
    obtain ⟨m, m1, m2⟩ := hS j
    obtain ⟨⟨m', m1', m2'⟩, -⟩ := C95_stays hst forwardEuler ⟨1, 1, 1, 1⟩ j
    rw [m1] at m1'; cases m1'
    rw [← m2, m2']
  have h3 := hlim i hi
  simp only [this] at h3
  exact tendsto_nhds_unique tendsto_const_nhds h3

/-- C114: without a stream there is nothing to carry the density: under HLLC and AUSM+ gas at rest under uniform pressure stays as it is, whatever its densities are. -/
theorem C114_at_rest (h : D.G.Ok) (hV : D.viscous = false) (hD : D.GasOk) (hg : 4 ≤ 3 * D.gas.g) (hs : D.scheme = .hllc ∨ D.scheme = .ausmPlus) (hp : 0 < p) (ha : 0 < a)
    (hb : StreamBcs D 0 p a b) (hcn : D.G.m.nconnface = 0) (har : ∀ i, i < D.G.m.nelem → 0 < D.G.ar i) {u : ℕ → St} (hu : InStream D 0 p a b u) : IsSteady D u := by
  have hg1 : 1 < D.gas.g := by linarith
  have hs1 : D.scheme ≠ .vanLeer := by rcases hs with e | e <;> rw [e] <;> simp
  have hs2 : D.scheme ≠ .ausm := by rcases hs with e | e <;> rw [e] <;> simp
  have hrows : ∀ j, j < D.G.rows → Adm D.gas (u j) := fun j hj => by
    obtain ⟨r, h1, -, e⟩ := hu j (by unfold Geo.rows at hj; omega)
    rw [e]; exact carried_adm hg1 (by linarith) hp
  have hgst : ∀ k, k < D.G.m.nbface → ∃ r, a ≤ r ∧ r ≤ b ∧ ghosts D u k = carried D.gas 0 p r := fun k hk => by
    obtain ⟨o, h1, h2⟩ := hb k hk
    obtain ⟨r, r1, r2, r3⟩ := hu _ (h.kind (Disc.bnd_lt h hk)).1
    unfold ghosts Disc.bstate
    rw [h1, r3]
    exact stream_ghost h2 (by linarith) r1 r2
  have hgh : ∀ k, k < D.G.m.nbface → Adm D.gas (ghosts D u k) := fun k hk => by
    obtain ⟨r, h1, -, e⟩ := hgst k hk
    rw [e]; exact carried_adm hg1 (by linarith) hp
  rw [← C95_explicit_iff h hD hb.ok hrows har one_ne_zero]
  funext i
  by_cases hi : i < D.G.m.nelem
  · obtain ⟨o, ho⟩ := Geo.exists_sides h hi
    obtain ⟨hX, r, hr, e⟩ := euler_cell h hV hg hb.ok hrows hgh hi (har i hi).ne' ho 1
    have hx : ∀ f, f < D.G.m.nnode i → ∃ x, a ≤ x ∧ (o f).val D.G.m u (ghosts D u) = carried D.gas 0 p x := fun f hf => by
      have hA := ho f hf
      cases hO : o f with
      | bnd k =>
        rw [hO] at hA
        obtain ⟨x, x1, -, x3⟩ := hgst k hA.1
        exact ⟨x, x1, x3⟩
      | cell j =>
        rw [hO] at hA
        obtain ⟨g, hG⟩ := hA
        obtain ⟨x, x1, -, x3⟩ := hu j hG.2.1.1
        exact ⟨x, x1, x3⟩
      | conn ic =>
        rw [hO] at hA
        have := hA.1
        omega
    obtain ⟨ri, r1, r2, r3⟩ := hu i hi
    have hri : 0 < ri := by linarith
    rw [single_upd hr, e, r3]
    have hF : ∀ f, f < D.G.m.nnode i → Carries D.gas 0 p (fNrm (nodeA D.G.m i f) (nodeB D.G.m i f))
        (D.scheme.flux D.gas (carried D.gas 0 p ri) ((o f).val D.G.m u (ghosts D u)) (fNrm (nodeA D.G.m i f) (nodeB D.G.m i f))) := fun f hf => by
      obtain ⟨x, x1, x2⟩ := hx f hf
      rw [x2]
      exact C110_flux hg1 hri (by linarith) hp D.scheme hs1 hs2
    rw [update_carried (sides_closed h hi) hF]
    congr 1
    have hz : ∑ f ∈ range (D.G.m.nnode i), fLen (nodeA D.G.m i f) (nodeB D.G.m i f) *
        D.scheme.flux D.gas (carried D.gas 0 p ri) ((o f).val D.G.m u (ghosts D u)) (fNrm (nodeA D.G.m i f) (nodeB D.G.m i f)) 0 = 0 := Finset.sum_eq_zero fun f hf => by
      obtain ⟨x, x1, x2⟩ := hx f (Finset.mem_range.1 hf)
      obtain ⟨d, -, -, d3, d4⟩ := C110_mass (w := 0) (n := fNrm (nodeA D.G.m i f) (nodeB D.G.m i f)) hg1 hri (show 0 < x by linarith) hp D.scheme hs1 hs2
      rw [x2, d4, d3 hs]
      simp
    rw [hz, mul_zero, sub_zero]
  · obtain ⟨o, ho⟩ : ∃ o, D.residual1 u 0 = some o := ⟨_, by unfold Disc.residual1; rw [if_pos hb.ok]⟩
    rw [single_upd ho]
    unfold euler
    rw [if_neg hi]

end

/-- C114 on several processes: the run is reported as converged there too. -/
theorem C114_several {gm : Mesh} {s : FState} {dist : ℕ → ℕ} (hc : Conforming gm) (hn : gm.nconnface = 0) (ht : gm.nbtag ≤ 4) (h : topological gm = .ok s)
    (hz : NoZeroFace gm) (hall : AllRegistered gm s dist) {n : ℕ} (hd : ∀ g, g < gm.nelem → dist g < n)
    (hmono : ∀ i j, i < j → j < gm.nelem → dist i ≤ dist j) (P : Settings) (hV : P.viscous = false) (hD : (P.disc gm s 0).GasOk) (hs : P.scheme ≠ .vanLeer) (hs' : P.scheme ≠ .ausm)
    {w : V2} {p a b ρ : ℝ} (hp : 0 < p) (ha : 0 < a) (h1 : a ≤ ρ) (h2 : ρ ≤ b) (hab : P.scheme = .hllc ∨ P.scheme = .ausmPlus ∨ b ≤ 4 * a)
    (hb : StreamBcs (P.disc gm s 0) w p ρ ρ) (hg : 4 ≤ 3 * P.gas.g) (har : ∀ i, i < gm.nelem → 0 < (area gm i).getD 0)
    (hsw : ∀ i, i < gm.nelem → Swept (P.disc gm s 0) w (carried P.gas w p ρ) i) {u : ℕ → St} (hu : InStream (P.disc gm s 0) w p a b u)
    {loc : ℕ → ℕ → St} (hl : Represents gm s dist loc u) {c : Conf} (hc0 : 0 < c.cflinit) (hc1 : c.cflinit ≤ 1) (ht0 : 0 < c.tol) (ht1 : c.tol < 1) :
    ∃ N : ℕ, ∀ M : ℤ, N < M → ∃ k, k ≤ N ∧ Solve forwardEuler (several P gm s dist n) { c with maxiter := M } loc k .ok := by
  obtain ⟨N, hN⟩ := C114_reported (D := P.disc gm s 0) ⟨hc, hz, h⟩ hV hD hg hs hs' hp ha h1 h2 hab hb hn har hsw hc0 hc1 ht0 ht1 hu
  refine ⟨N, fun M hM => ?_⟩
  obtain ⟨k, k1, k2⟩ := hN M hM
  exact ⟨k, k1, (C110_several (c := { c with maxiter := M }) hc hn ht h hz hall hd hmono P hV hs hs' hp ha hab (hb.mono h1 h2) hg har hu hl hc0.le hc1).2 k2⟩

/-! ### Two squares in a stream -/

/-- Far field of density 2, moving to the right. -/
noncomputable def wind (sch : Scheme) : Settings := ⟨air, sch, false, false, fun _ => some (.farfield (carried air ![1 / 4, 0] (5 / 7) 2))⟩

theorem wind_left {i : ℕ} (hi : i < 2) : fNrm (nodeA pair i 3) (nodeB pair i 3) = ![-1, 0] := by
  have hl : fLen (nodeA pair i 3) (nodeB pair i 3) = 1 := by
    obtain rfl | rfl : i = 0 ∨ i = 1 := by omega
    all_goals norm_num [fLen, nodeA, nodeB, pair]
  unfold fNrm
  rw [hl]
  obtain rfl | rfl : i = 0 ∨ i = 1 := by omega
  all_goals norm_num [nodeA, nodeB, pair]

theorem wind_swept (s : FState) (sch : Scheme) (i : ℕ) (hi : i < 2) : Swept ((wind sch).disc pair s 0) ![1 / 4, 0] (carried air ![1 / 4, 0] (5 / 7) 2) i := by
  have hn : ∀ i, i < 2 → outward ((wind sch).disc pair s 0) ![1 / 4, 0] i 3 < 0 := fun i hi => by
    show ![1 / 4, 0] 0 * fNrm (nodeA pair i 3) (nodeB pair i 3) 0 + ![1 / 4, 0] 1 * fNrm (nodeA pair i 3) (nodeB pair i 3) 1 < 0
    rw [wind_left hi]
    simp
  have h0 : Swept ((wind sch).disc pair s 0) ![1 / 4, 0] (carried air ![1 / 4, 0] (5 / 7) 2) 0 :=
    Swept.inflow (f := 3) (k := 5) (show 0 < 2 by omega) (show 3 < 4 by omega) (pair_across 3 (by decide +kernel)) (hn 0 (by omega)) (Or.inl rfl)
  obtain rfl | rfl : i = 0 ∨ i = 1 := by omega
  · exact h0
  · exact Swept.cell (f := 3) (j := 0) (show 1 < 2 by omega) (show 3 < 4 by omega)
      ((⟨1, ⟨by decide +kernel, by decide +kernel⟩, ⟨by decide +kernel, by decide +kernel⟩, by simp, by decide +kernel⟩ : Across pair (1, 3) (.cell 0))) (hn 1 (by omega)) h0

theorem wind_bcs (s : FState) (sch : Scheme) : StreamBcs ((wind sch).disc pair s 0) ![1 / 4, 0] (5 / 7) 2 2 := fun _ _ => ⟨_, rfl, 2, le_rfl, le_rfl, rfl⟩

theorem wind_ar (s : FState) (sch : Scheme) (i : ℕ) (hi : i < 2) : 0 < ((wind sch).disc pair s 0).G.ar i := by
  show 0 < (area pair i).getD 0
  rw [pair_area hi]; norm_num

theorem wind_in (s : FState) (sch : Scheme) : InStream ((wind sch).disc pair s 0) ![1 / 4, 0] (5 / 7) 1 4 (two (carried air ![1 / 4, 0] (5 / 7) 1) (carried air ![1 / 4, 0] (5 / 7) 4)) := fun i _ => by
  unfold two
  split_ifs
  · exact ⟨1, le_rfl, by norm_num, rfl⟩
  · exact ⟨4, by norm_num, le_rfl, rfl⟩

theorem wind_gas (s : FState) (sch : Scheme) : ((wind sch).disc pair s 0).GasOk := ⟨by show 0 < air.Pr; norm_num [air], by show 0 < air.Minf; norm_num [air],
  by show 0 < air.Tinf; norm_num [air], by show 0 < air.Reinf; norm_num [air]⟩

/-- Air of density 1 beside air of density 4 in a stream of density 2: the runs of LLF, HLL, HLLC, AUSM+ and Roe tend to density 2 and are reported as converged. -/
example : ∃ s, topological pair = .ok s ∧ ∀ sch : Scheme, sch ≠ .vanLeer → sch ≠ .ausm →
    ∃ N : ℕ, ∀ M : ℤ, N < M → ∃ n, n ≤ N ∧ Solve forwardEuler (single ((wind sch).disc pair s 0)) ⟨1 / 1000, M, 9 / 10, 9 / 10⟩
      (two (carried air ![1 / 4, 0] (5 / 7) 1) (carried air ![1 / 4, 0] (5 / 7) 4)) n .ok := by
  obtain ⟨s, hs, -⟩ := pair_topological
  exact ⟨s, hs, fun sch h1 h2 => C114_reported (D := (wind sch).disc pair s 0) (c := ⟨1 / 1000, 1, 9 / 10, 9 / 10⟩) ⟨pair_conforming, pair_nozero, hs⟩ rfl (wind_gas s sch)
    (by show 4 ≤ 3 * air.g; norm_num [air]) h1 h2 (by norm_num) one_pos (by norm_num) (by norm_num) (Or.inr (Or.inr (by norm_num))) (wind_bcs s sch) rfl (wind_ar s sch) (wind_swept s sch)
    (by norm_num) (by norm_num) (by norm_num) (by norm_num) (wind_in s sch)⟩

example : ∃ s, topological pair = .ok s ∧ ∀ sch : Scheme, sch ≠ .vanLeer → sch ≠ .ausm →
    ∃ q : ℕ → ℕ → St, (∀ j, StateAt forwardEuler (single ((wind sch).disc pair s 0)) ⟨1 / 1000, 1, 1, 1⟩
      (two (carried air ![1 / 4, 0] (5 / 7) 1) (carried air ![1 / 4, 0] (5 / 7) 4)) j (q j)) ∧ ∀ i, i < 2 → Tendsto (fun j => q j i) atTop (𝓝 (carried air ![1 / 4, 0] (5 / 7) 2)) := by
  obtain ⟨s, hs, -⟩ := pair_topological
  refine ⟨s, hs, fun sch h1 h2 => ?_⟩
  obtain ⟨q, q1, -, -, q2⟩ := C114_converges (D := (wind sch).disc pair s 0) (c := ⟨1 / 1000, 1, 1, 1⟩) ⟨pair_conforming, pair_nozero, hs⟩ rfl
    (by show 4 ≤ 3 * air.g; norm_num [air]) h1 h2 (by norm_num) one_pos (by norm_num) (by norm_num) (Or.inr (Or.inr (by norm_num))) (wind_bcs s sch) rfl (wind_ar s sch) (wind_swept s sch)
    one_pos le_rfl (wind_in s sch)
  exact ⟨q, q1, q2⟩

/-- Still air of density 1 beside still air of density 4, extrapolated at the boundary: HLLC and AUSM+ leave both as they are. -/
example : ∃ s, topological pair = .ok s ∧ ∀ sch : Scheme, sch = .hllc ∨ sch = .ausmPlus →
    IsSteady ((airOut sch).disc pair s 0) (two (carried air 0 (5 / 7) 1) (carried air 0 (5 / 7) 4)) := by
  obtain ⟨s, hs, -⟩ := pair_topological
  refine ⟨s, hs, fun sch h1 => ?_⟩
  exact C114_at_rest (D := (airOut sch).disc pair s 0) (p := 5 / 7) (a := 1) (b := 4) ⟨pair_conforming, pair_nozero, hs⟩ rfl ⟨(wind_gas s sch).pr, (wind_gas s sch).mach, (wind_gas s sch).tinf, (wind_gas s sch).re⟩
    (by show 4 ≤ 3 * air.g; norm_num [air]) h1
    (by norm_num) one_pos (fun k _ => ⟨_, rfl, trivial⟩) rfl (wind_ar s sch) (fun i _ => by
      unfold two
      split_ifs
      · exact ⟨1, le_rfl, by norm_num, rfl⟩
      · exact ⟨4, by norm_num, le_rfl, rfl⟩)

end Par
end FVENS
