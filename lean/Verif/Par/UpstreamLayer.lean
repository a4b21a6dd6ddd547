import Verif.Par.UpstreamSecond

/-!
# How far second-order schemes carry influence against a supersonic stream (C98)

One layer of cells, through the gradients, and no further: with linear reconstruction, the residual in a set of cells that the gas leaves faster than sound is determined by the states in the set and
in the cells next to it.
-/

namespace FVENS
namespace FV
namespace Disc

open Msh Flux
open Finset (range sum_congr mem_range mem_filter)

variable {D : Disc}

/-! ### Specification -/

/-- Cells of the set and cells that share a face with one of them. -/
def Near (D : Disc) (U : ℕ → Prop) (j : ℕ) : Prop := U j ∨ ∃ k, k < D.G.nface ∧ D.G.m.nbface ≤ k ∧ ((U (D.G.face k).left ∧ (D.G.face k).right = j) ∨ (U (D.G.face k).right ∧ (D.G.face k).left = j))

/-- The face states say that the gas leaves the set faster than sound through every face between the set and other cells. -/
def LeavesFaces (D : Disc) (U : ℕ → Prop) (o : Out) : Prop := ∀ k, k < D.G.nface → D.G.m.nbface ≤ k →
  (U (D.G.face k).left → ¬ U (D.G.face k).right → Adm D.gas (o.uL k) ∧ Adm D.gas (o.uR k) ∧ Par.Faster D.scheme D.gas (o.uL k) (o.uR k) (D.G.nrm k)) ∧
  (U (D.G.face k).right → ¬ U (D.G.face k).left → Adm D.gas (o.uL k) ∧ Adm D.gas (o.uR k) ∧ Par.Faster D.scheme D.gas (o.uR k) (o.uL k) (-D.G.nrm k))

/-! ### Gradients -/

/-- Gradients of a cell depend on the values on the two sides of its faces. -/
theorem gradients_faces (h : D.G.Ok) (gs : GradScheme) {u w ug wg : ℕ → St} (old : ℕ → Gr) {i : ℕ} (hi : i < D.G.m.nelem)
    (hl : ∀ k, k < D.G.nface → D.G.touches i k → u (D.G.face k).left = w (D.G.face k).left) (hr : ∀ k, k < D.G.nface → D.G.touches i k → D.G.ur u ug k = D.G.ur w wg k) :
    D.gradients gs u ug old i = D.gradients gs w wg old i := by
  unfold gradients
  rw [if_pos hi, if_pos hi]
  cases gs with
  | zero => rfl
  | greenGauss =>
    show D.G.greenGauss u ug i = D.G.greenGauss w wg i
    unfold Geo.greenGauss
    change accum _ _ _ _ _ (fun _ => 0) i = accum _ _ _ _ _ (fun _ => 0) i
    rw [Geo.accum_touch h _ _ hi, Geo.accum_touch h _ _ hi]
    refine sum_congr rfl fun k hk => ?_
    obtain ⟨hk, ht⟩ := mem_filter.1 hk
    have hu : ∀ j, D.G.ut u ug k j = D.G.ut w wg k j := fun j => by
      unfold Geo.ut
      rw [hl k (mem_range.1 hk) ht, hr k (mem_range.1 hk) ht]
    have e1 : D.G.ggL u ug k = D.G.ggL w wg k := by funext d j; simp only [Geo.ggL, hu]
    have e2 : D.G.ggR u ug k = D.G.ggR w wg k := by funext d j; simp only [Geo.ggR, hu]
    rw [e1, e2]
  | wls =>
    show D.G.wls u ug i = D.G.wls w wg i
    unfold Geo.wls
    congr 1
    funext a j
    rw [Geo.lsRhs_eq h _ _ hi, Geo.lsRhs_eq h _ _ hi]
    refine sum_congr rfl fun k hk => ?_
    obtain ⟨hk, ht⟩ := mem_filter.1 hk
    rw [hl k (mem_range.1 hk) ht, hr k (mem_range.1 hk) ht]

theorem recGrads_near (h : D.G.Ok) (gs : GradScheme) (E : Env) {U : ℕ → Prop} {u w : ℕ → St} (he : ∀ j, Near D U j → u j = w j) {i : ℕ} (hi : i < D.G.m.nelem) (hU : U i) :
    D.recGrads gs .linear E u i = D.recGrads gs .linear E w i := by
  have key : ∀ k, k < D.G.nface → D.G.touches i k → u (D.G.face k).left = w (D.G.face k).left ∧ (D.G.m.nbface ≤ k → u (D.G.face k).right = w (D.G.face k).right) := by
    intro k hk ht
    obtain ⟨k1, k2, k3, k4, k5⟩ := h.kind hk
    rcases ht with e | e
    · exact ⟨he _ (.inl (by rw [e]; exact hU)), fun hb => he _ (.inr ⟨k, hk, hb, .inl ⟨by rw [e]; exact hU, rfl⟩⟩)⟩
    · have hb : D.G.m.nbface ≤ k := (k4.2 (by omega)).1
      exact ⟨he _ (.inr ⟨k, hk, hb, .inr ⟨by rw [e]; exact hU, rfl⟩⟩), fun _ => he _ (.inl (by rw [e]; exact hU))⟩
  refine gradients_faces h gs _ hi (fun k hk ht => by rw [(key k hk ht).1]) fun k hk ht => ?_
  unfold Geo.ur
  split_ifs with hb
  · show D.gas.primOfCons _ = D.gas.primOfCons _
    rw [(key k hk ht).1]
  · show D.gas.primOfCons _ = D.gas.primOfCons _
    rw [(key k hk ht).2 (by omega)]

/-! ### The residual -/

/-- C98 at second order, linear reconstruction, no viscosity: if the gas leaves the set faster than sound according to the face states, the residual in the set is determined by the states in the set and
in the cells next to it; what is farther downstream has no effect. -/
theorem C98_second_order_layer (h : D.G.Ok) (hg : 4 ≤ 3 * D.gas.g) (hv : D.viscous = false) {gs : GradScheme} {E : Env} {U : ℕ → Prop} {u w r : ℕ → St} {o o' : Out}
    (ho : D.residual2 gs .linear E u r = some o) (ho' : D.residual2 gs .linear E w r = some o') (he : ∀ j, Near D U j → u j = w j) (hlu : LeavesFaces D U o) (hlw : LeavesFaces D U o')
    {i : ℕ} (hi : i < D.G.m.nelem) (hU : U i) : o.res i = o'.res i := by
  obtain ⟨hb, a, -, -, hR, hres⟩ := residual2_some.1 ho
  obtain ⟨-, a', -, -, hR', hres'⟩ := residual2_some.1 ho'
  have hL : ∀ k, k < D.G.nface → U (D.G.face k).left → o.uL k = o'.uL k := fun k hk hl => by
    rw [(linear_states h ho hk).1, (linear_states h ho' hk).1, recGrads_near h gs E he (h.kind hk).1 hl, he _ (.inl hl)]
  have hRR : ∀ k, k < D.G.nface → D.G.inner k → U (D.G.face k).right → o.uR k = o'.uR k := fun k hk hin hr => by
    rw [(linear_states h ho hk).2 hin, (linear_states h ho' hk).2 hin, recGrads_near h gs E he ((h.kind hk).2.2.2.1.1 hin) hr, he _ (.inl hr)]
  rw [hres, hres']
  dsimp only [fluxes]
  rw [assemble_eq, assemble_eq]
  congr 1
  refine sum_congr rfl fun k hk => ?_
  have hk : k < D.G.nface := mem_range.1 hk
  obtain ⟨k1, k2, k3, k4, k5⟩ := h.kind hk
  by_cases ht : (D.G.face k).left = i ∨ (D.G.face k).right = i
  · have hff : D.scheme.flux D.gas (o.uL k) (o.uR k) (D.G.nrm k) = D.scheme.flux D.gas (o'.uL k) (o'.uR k) (D.G.nrm k) := by
      have hun := Par.nrm_unit h hk
      by_cases hUl : U (D.G.face k).left
      · by_cases hbd : k < D.G.m.nbface
        · rw [hR, hR', if_pos hbd, if_pos hbd, hL k hk hUl]
        · by_cases hUr : U (D.G.face k).right
          · by_cases hin : D.G.inner k
            · rw [hL k hk hUl, hRR k hk hin hUr]
            · rw [hR, hR', if_neg hbd, if_neg hbd, if_neg hin, if_neg hin, hL k hk hUl]
          · obtain ⟨a1, a2, a3⟩ := (hlu k hk (by omega)).1 hUl hUr
            obtain ⟨b1, b2, b3⟩ := (hlw k hk (by omega)).1 hUl hUr
            rw [a3.flux a1 a2, b3.flux b1 b2, hL k hk hUl]
      · have hr : (D.G.face k).right = i := ht.resolve_left fun e => hUl (by rw [e]; exact hU)
        have hin : D.G.inner k := k4.2 (by omega)
        have hUr : U (D.G.face k).right := by rw [hr]; exact hU
        obtain ⟨a1, a2, a3⟩ := (hlu k hk hin.1).2 hUr hUl
        obtain ⟨b1, b2, b3⟩ := (hlw k hk hin.1).2 hUr hUl
        rw [a3.flux_right hg hun a1 a2, b3.flux_right hg hun b1 b2, hRR k hk hin hUr]
    congr 1
    funext v
    simp only [faceFlux, hv, hff, Bool.false_eq_true, if_false]
  · have e1 : ¬ (faceAt D.G.s.faces k).left = i := fun e => ht (Or.inl e)
    have e2 : ¬ (faceAt D.G.s.faces k).right = i := fun e => ht (Or.inr e)
    simp [contrib, e1, e2]

theorem exStill_leaves {o : Out} (hf : Par.Faster .ausm air (o.uL 4) (o.uR 4) ![1, 0]) (ha : Adm air (o.uL 4)) (hb : Adm air (o.uR 4)) : LeavesFaces exStill (fun q => q = 0) o := by
  obtain ⟨hn, f0, f1, f2, f3, f4, f5⟩ := exGeo_face
  obtain ⟨c0, c1, c2, c3, c4⟩ := exGeo_coords
  have n4 : exGeo.nrm 4 = ![1, 0] := by
    unfold Geo.nrm
    rw [f4, c1, c2]
    funext q
    fin_cases q <;> simp [fNrm, fLen]
  intro k hk hk'
  change k < exGeo.nface at hk
  change 4 ≤ k at hk'
  change ((exGeo.face k).left = 0 → ¬ (exGeo.face k).right = 0 → _) ∧ ((exGeo.face k).right = 0 → ¬ (exGeo.face k).left = 0 → _)
  obtain rfl | rfl : k = 4 ∨ k = 5 := by omega
  · rw [f4]
    refine ⟨fun _ _ => ⟨ha, hb, ?_⟩, fun e => absurd e (by decide)⟩
    show Par.Faster .ausm air _ _ (exGeo.nrm 4)
    rw [n4]; exact hf
  · rw [f5]
    exact ⟨fun e => absurd e (by decide), fun e => absurd e (by decide)⟩

theorem exStill_near {j : ℕ} (hj : Near exStill (fun q => q = 0) j) : j = 0 ∨ j = 1 := by
  obtain ⟨hn, f0, f1, f2, f3, f4, f5⟩ := exGeo_face
  rcases hj with hj | ⟨k, hk, hk', hj⟩
  · exact .inl hj
  · change k < exGeo.nface at hk
    change 4 ≤ k at hk'
    change ((exGeo.face k).left = 0 ∧ (exGeo.face k).right = j) ∨ ((exGeo.face k).right = 0 ∧ (exGeo.face k).left = j) at hj
    obtain rfl | rfl : k = 4 ∨ k = 5 := by omega
    · rw [f4] at hj; simp at hj; omega
    · rw [f5] at hj; simp at hj

/-- Dense gas in the second cell of the example mesh, and beyond it gas of either density: the residual of the first cell is the same. -/
example (E : Env) : ∃ o o', exStill.residual2 .greenGauss .linear E (dense (14 / 5) (14 / 5)) (fun _ => 0) = some o ∧
    exStill.residual2 .greenGauss .linear E (dense (14 / 5) (7 / 5)) (fun _ => 0) = some o' ∧ o.res 0 = o'.res 0 := by
  obtain ⟨t, o, t0, ho, hf, ha, hb, -⟩ := dense_residual (b := 14 / 5) (z := 14 / 5) (by norm_num) le_rfl (by norm_num) le_rfl E
  obtain ⟨t', o', t0', ho', hf', ha', hb', -⟩ := dense_residual (b := 14 / 5) (z := 7 / 5) (by norm_num) le_rfl (by norm_num) (by norm_num) E
  refine ⟨o, o', ho, ho', C98_second_order_layer exGeo_ok (by show 4 ≤ 3 * air.g; norm_num [air]) rfl ho ho' (fun j hj => ?_) (exStill_leaves hf ha hb) (exStill_leaves hf' ha' hb')
    (by show 0 < 2; decide) rfl⟩
  rcases exStill_near hj with rfl | rfl <;> simp [dense]

end Disc
end FV
end FVENS
