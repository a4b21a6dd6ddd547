import Verif.Flux.Enthalpy
import Verif.Par.WeakSteady

/-!
# Total enthalpy of steady flows (C111)

In a steady inviscid flow whose gas all comes from one reservoir, the total enthalpy is the reservoir's everywhere. With AUSM and AUSM+ this holds for the discrete steady states, exactly and
on any mesh.
-/

namespace FVENS
namespace Par

open Msh FV Flux Ode Lin
open Finset (range)

/-! ### Specification -/

/-- Mass flux out of cell `i` through its local face `f`, with state `X` on the other side. -/
noncomputable def massOut (D : Disc) (u : ℕ → St) (i f : ℕ) (X : St) : ℝ := D.scheme.flux D.gas (u i) X (fNrm (nodeA D.G.m i f) (nodeB D.G.m i f)) 0

/-- Going against the mass fluxes from cell to cell one can come from cell `i` to a boundary face where gas with total enthalpy `H` enters. -/
inductive Fed (D : Disc) (u : ℕ → St) (H : ℝ) : ℕ → Prop
  | inflow {i f k : ℕ} : i < D.G.m.nelem → f < D.G.m.nnode i → Across D.G.m (i, f) (.bnd k) → massOut D u i f (ghosts D u k) < 0 → enthalpy D.gas (ghosts D u k) = H → Fed D u H i
  | cell {i f j : ℕ} : i < D.G.m.nelem → f < D.G.m.nnode i → Across D.G.m (i, f) (.cell j) → massOut D u i f (u j) < 0 → Fed D u H j → Fed D u H i

/-- Boundary conditions that bring no other total enthalpy in: slip walls, insulated walls at rest, extrapolation, and far fields of total enthalpy `H`. -/
def TotalBc (G : Gas) (H : ℝ) : BC.Obj → Prop
  | .slip | .extrapolation => True
  | .adiabatic tv => tv = 0
  | .farfield c => Adm G c ∧ enthalpy G c = H
  | _ => False

/-! ### One cell -/

/-- If mass and enthalpy are balanced and no inflow has more enthalpy than the cell, all inflow has as much. -/
theorem inflow_eq {N : ℕ} {m h x : ℕ → ℝ} {hi s : ℝ} (hs : s ≠ 0) (hm : ∑ f ∈ range N, m f = 0) (hh : ∑ f ∈ range N, m f * h f = 0)
    (hup : ∀ f, f < N → h f = if 0 < m f then hi else x f) (hle : ∀ f, f < N → m f < 0 → s * x f ≤ s * hi) {f : ℕ} (hf : f < N) (hneg : m f < 0) : x f = hi := by
  have key : ∑ f ∈ range N, (if m f < 0 then -m f * (s * hi - s * x f) else 0) = 0 := by
    have : ∀ f ∈ range N, (if m f < 0 then -m f * (s * hi - s * x f) else 0) = s * (m f * h f) - s * hi * m f := fun f hf => by
      rw [hup f (Finset.mem_range.1 hf)]
      split_ifs with h1 h2 h2
      · linarith
      · ring
      · ring
      · have : m f = 0 := le_antisymm (not_lt.1 h2) (not_lt.1 h1)
        rw [this]; ring
    rw [Finset.sum_congr rfl this, Finset.sum_sub_distrib, ← Finset.mul_sum, ← Finset.mul_sum, hm, hh]; ring
  have h0 := (Finset.sum_eq_zero_iff_of_nonneg (fun f hf => by
    split_ifs with h1
    · exact mul_nonneg (by linarith) (by linarith [hle f (Finset.mem_range.1 hf) h1])
    · exact le_rfl)).1 key f (Finset.mem_range.2 hf)
  rw [if_pos hneg] at h0
  have h1 : s * hi - s * x f = 0 := (mul_eq_zero.1 h0).resolve_left (by linarith)
  have h2 : s * (hi - x f) = 0 := by linarith
  linarith [(mul_eq_zero.1 h2).resolve_left hs]

section
variable {D : Disc} {u : ℕ → St}

/-- Fluxes of a steady cell balance. -/
theorem steady_cell (h : D.G.Ok) (hV : D.viscous = false) (hg : 4 ≤ 3 * D.gas.g) (hb : D.BcOk) (hu : ∀ j, j < D.G.rows → Adm D.gas (u j))
    (hgh : ∀ k, k < D.G.m.nbface → Adm D.gas (ghosts D u k)) (hst : IsSteady D u) {i : ℕ} (hi : i < D.G.m.nelem) (har : D.G.ar i ≠ 0)
    {o : ℕ → Other} (ho : ∀ f, f < D.G.m.nnode i → Across D.G.m (i, f) (o f)) :
    (∀ f, f < D.G.m.nnode i → Adm D.gas ((o f).val D.G.m u (ghosts D u))) ∧
    ∀ v, ∑ f ∈ range (D.G.m.nnode i), fLen (nodeA D.G.m i f) (nodeB D.G.m i f) *
        D.scheme.flux D.gas (u i) ((o f).val D.G.m u (ghosts D u)) (fNrm (nodeA D.G.m i f) (nodeB D.G.m i f)) v = 0 := by
  obtain ⟨hX, r, hr, e⟩ := euler_cell h hV hg hb hu hgh hi har ho 1
  refine ⟨hX, fun v => ?_⟩
  obtain ⟨r', hr', h0⟩ := hst
  rw [hr] at hr'
  cases hr'
  have hz : euler D 1 r r.res u i = u i := by
    funext v
    unfold euler
    rw [if_pos hi, h0 i hi]; simp
  rw [hz] at e
  have hui := hu i (by unfold Geo.rows; omega)
  have hIpos : 0 < ∑ f ∈ range (D.G.m.nnode i), fLen (nodeA D.G.m i f) (nodeB D.G.m i f) *
      (|Gas.varsVn (u i) (fNrm (nodeA D.G.m i f) (nodeB D.G.m i f))| + cSide D.gas (u i)) := by
    refine Finset.sum_pos (fun f hf => mul_pos (fLen_pos (h.nz (i, f) ⟨hi, Finset.mem_range.1 hf⟩)) (add_pos_of_nonneg_of_pos (abs_nonneg _) hui.c_pos)) ?_
    have := h.conf.lin.three i hi
    exact ⟨0, Finset.mem_range.2 (by omega)⟩
  have e' := sub_eq_self.1 e.symm
  rcases smul_eq_zero.1 e' with e' | e'
  · exact absurd e' (div_pos one_pos hIpos).ne'
  · have := congrFun e' v
    rw [Finset.sum_apply] at this
    simpa using this

/-- C111: if the gas of every cell of a steady state comes from boundary faces where gas of total enthalpy `H` enters, and no gas of other total enthalpy enters, the total enthalpy is
`H` in all cells. -/
theorem C111_uniform (h : D.G.Ok) (hV : D.viscous = false) (hg : 4 ≤ 3 * D.gas.g) (hs : D.scheme = .ausm ∨ D.scheme = .ausmPlus) (hb : D.BcOk) (hcn : D.G.m.nconnface = 0)
    (har : ∀ i, i < D.G.m.nelem → 0 < D.G.ar i) (hu : ∀ i, i < D.G.m.nelem → Adm D.gas (u i)) (hgh : ∀ k, k < D.G.m.nbface → Adm D.gas (ghosts D u k)) {H : ℝ}
    (hin : ∀ i f k, i < D.G.m.nelem → f < D.G.m.nnode i → Across D.G.m (i, f) (.bnd k) → massOut D u i f (ghosts D u k) < 0 →
      enthalpy D.gas (ghosts D u k) = H ∨ enthalpy D.gas (ghosts D u k) = enthalpy D.gas (u i))
    (hst : IsSteady D u) (hfed : ∀ i, i < D.G.m.nelem → Fed D u H i) : ∀ i, i < D.G.m.nelem → enthalpy D.gas (u i) = H := by
  have hrows : ∀ j, j < D.G.rows → Adm D.gas (u j) := fun j hj => hu j (by unfold Geo.rows at hj; omega)
  -- one-sided bound
  have main : ∀ s : ℝ, s ≠ 0 → ∀ i, i < D.G.m.nelem → s * enthalpy D.gas (u i) ≤ s * H := by
    intro s hs0 i hi
    obtain ⟨j0, hj0, hmax⟩ := Finset.exists_max_image (range D.G.m.nelem) (fun i => s * enthalpy D.gas (u i)) ⟨i, Finset.mem_range.2 hi⟩
    rw [Finset.mem_range] at hj0
    by_contra hlt
    have hlt := not_le.1 hlt
    have hM : s * H < s * enthalpy D.gas (u j0) := lt_of_lt_of_le hlt (hmax i (Finset.mem_range.2 hi))
    have up : ∀ j, j < D.G.m.nelem → enthalpy D.gas (u j) = enthalpy D.gas (u j0) → ∀ f, f < D.G.m.nnode j → ∀ o : Other, Across D.G.m (j, f) o →
        massOut D u j f (o.val D.G.m u (ghosts D u)) < 0 → enthalpy D.gas (o.val D.G.m u (ghosts D u)) = enthalpy D.gas (u j0) := by
      intro j hj hej f hf o1 ho1 hneg
      obtain ⟨o, ho⟩ := Geo.exists_sides h hj
      -- put the given neighbour into the family
      have ho' : ∀ f', f' < D.G.m.nnode j → Across D.G.m (j, f') ((Function.update o f o1) f') := fun f' hf' => by
        by_cases e : f' = f
        · rw [e, Function.update_self]; exact ho1
        · rw [Function.update_of_ne e]; exact ho f' hf'
      obtain ⟨hX, hbal⟩ := steady_cell h hV hg hb hrows hgh hst hj (har j hj).ne' ho'
      set o' := Function.update o f o1 with ho'def
      have hf1 : (o' f) = o1 := Function.update_self ..
      have hL : ∀ f', f' < D.G.m.nnode j → 0 < fLen (nodeA D.G.m j f') (nodeB D.G.m j f') := fun f' hf' => fLen_pos (h.nz (j, f') ⟨hj, hf'⟩)
      rw [← hf1, ← hej]
      refine inflow_eq (N := D.G.m.nnode j) (m := fun f' => fLen (nodeA D.G.m j f') (nodeB D.G.m j f') * massOut D u j f' ((o' f').val D.G.m u (ghosts D u)))
        (h := fun f' => if 0 < massOut D u j f' ((o' f').val D.G.m u (ghosts D u)) then enthalpy D.gas (u j) else enthalpy D.gas ((o' f').val D.G.m u (ghosts D u)))
        (x := fun f' => enthalpy D.gas ((o' f').val D.G.m u (ghosts D u))) hs0 (hbal 0) ?_ ?_ ?_ hf ?_
      · refine (Finset.sum_congr rfl fun f' hf' => ?_).trans (hbal 3)
        have := C111_upwind (n := fNrm (nodeA D.G.m j f') (nodeB D.G.m j f')) (hu j hj) (hX f' (Finset.mem_range.1 hf')) hs
        rw [this, mul_assoc]; rfl
      · intro f' hf'
        simp only [mul_pos_iff_of_pos_left (hL f' hf')]
      · intro f' hf' hn
        have hn' : massOut D u j f' ((o' f').val D.G.m u (ghosts D u)) < 0 := by
          by_contra hc
          exact absurd hn (not_lt.2 (mul_nonneg (hL f' hf').le (not_lt.1 hc)))
        have hA := ho' f' hf'
        have : s * enthalpy D.gas ((o' f').val D.G.m u (ghosts D u)) ≤ s * enthalpy D.gas (u j0) := by
          cases hO : o' f' with
          | bnd k =>
            rw [hO] at hA hn'
            rcases hin j f' k hj hf' hA hn' with e | e
            · show s * enthalpy D.gas (ghosts D u k) ≤ _
              rw [e]; exact hM.le
            · show s * enthalpy D.gas (ghosts D u k) ≤ _
              rw [e, hej]
          | cell l =>
            rw [hO] at hA
            obtain ⟨g, hG⟩ := hA
            exact hmax l (Finset.mem_range.2 hG.2.1.1)
          | conn ic =>
            rw [hO] at hA
            have := hA.1
            omega
        rw [← hej] at this
        exact this
      · simp only [hf1]
        exact mul_neg_of_pos_of_neg (hL f hf) hneg
    have contra : ∀ j, Fed D u H j → enthalpy D.gas (u j) = enthalpy D.gas (u j0) → False := by
      intro j hj
      induction hj with
      | @inflow i f k hi hf hA hn he =>
        intro e
        have : enthalpy D.gas (ghosts D u k) = _ := up i hi e f hf (.bnd k) hA hn
        rw [he] at this
        rw [this] at hM
        exact lt_irrefl _ hM
      | @cell i f j hi hf hA hn _ ih =>
        intro e
        exact ih (up i hi e f hf (.cell j) hA hn)
    exact contra j0 (hfed j0 hj0) rfl
  intro i hi
  have h1 := main 1 one_ne_zero i hi
  have h2 := main (-1) (by norm_num) i hi
  linarith

theorem total_ghost {G : Gas} {H : ℝ} {o : BC.Obj} (ho : TotalBc G H o) {ins : St} {n : V2} (hn : n 0 * n 0 + n 1 * n 1 = 1) (h : Adm G ins) :
    enthalpy G (o.ghost G ins n) = H ∨ enthalpy G (o.ghost G ins n) = enthalpy G ins := by
  have h0 := h.rho'
  cases o with
  | slip =>
    right
    have e : (BC.slip ins n 1) * (BC.slip ins n 1) + (BC.slip ins n 2) * (BC.slip ins n 2) = ins 1 * ins 1 + ins 2 * ins 2 := by
      simp [BC.slip, dot, mom]
      field_simp
      linear_combination (4 * (ins 1 * n 0 + ins 2 * n 1) ^ 2) * hn
    simp only [enthalpy, BC.Obj.ghost, Gas.pressure, dot, mom]
    have e0 : BC.slip ins n 0 = ins 0 := rfl
    have e3 : BC.slip ins n 3 = ins 3 := rfl
    rw [e0, e3]
    simp [e]
  | farfield c => left; exact ho.2
  | extrapolation => right; rfl
  | adiabatic tv =>
    right
    have ho : tv = 0 := ho
    subst ho
    simp [enthalpy, BC.Obj.ghost, BC.adiabatic, Gas.pressure, dot, mom]
  | inOut _ => exact ho.elim
  | inflow _ _ => exact ho.elim
  | isothermal _ _ => exact ho.elim

/-- C111 with the boundary conditions of the code. -/
theorem C111_steady (h : D.G.Ok) (hV : D.viscous = false) (hg : 4 ≤ 3 * D.gas.g) (hs : D.scheme = .ausm ∨ D.scheme = .ausmPlus) (hcn : D.G.m.nconnface = 0)
    (har : ∀ i, i < D.G.m.nelem → 0 < D.G.ar i) (hu : ∀ i, i < D.G.m.nelem → Adm D.gas (u i)) {H : ℝ}
    (hb : ∀ k, k < D.G.m.nbface → ∃ o, D.bc (D.tag k) = some o ∧ TotalBc D.gas H o)
    (hst : IsSteady D u) (hfed : ∀ i, i < D.G.m.nelem → Fed D u H i) : ∀ i, i < D.G.m.nelem → enthalpy D.gas (u i) = H := by
  have hrows : ∀ j, j < D.G.rows → Adm D.gas (u j) := fun j hj => hu j (by unfold Geo.rows at hj; omega)
  have hsafe : SafeBcs D := fun k hk => by
    obtain ⟨o, h1, h2⟩ := hb k hk
    refine ⟨o, h1, ?_⟩
    cases o with
    | slip => trivial
    | extrapolation => trivial
    | adiabatic tv => exact h2
    | farfield c => exact h2.1
    | inOut _ => exact h2.elim
    | inflow _ _ => exact h2.elim
    | isothermal _ _ => exact h2.elim
  refine C111_uniform h hV hg hs hsafe.ok hcn har hu (fun k hk => hsafe.ghost h hrows hk) (fun i f k hi hf hA _ => ?_) hst hfed
  obtain ⟨o, h1, h2⟩ := hb k hA.1
  have hk := Disc.bnd_lt h hA.1
  have hl : (D.G.face k).left = i := by
    obtain ⟨k', hk', -, hside⟩ := side_exists h ⟨hi, hf⟩ hA
    obtain ⟨rfl, -, e⟩ := hside
    rw [e]
  unfold ghosts Disc.bstate
  rw [h1, hl]
  exact total_ghost h2 (Disc.nrm_unit h hk) (hu i hi)

end

/-! ### A shock between two cells -/

/-- AUSM+ keeps a shock standing between two squares; the gas of both cells comes through the left face, so that the theorem applies and the total enthalpy is the same on both sides. -/
example : ∃ s, topological pair = .ok s ∧ ∀ i, i < 2 → enthalpy air (two (shockA 0) (shockB 0) i) = enthalpy air (shockA 0) := by
  obtain ⟨s, hs, hf⟩ := pair_topological
  refine ⟨s, hs, ?_⟩
  set D := (airOut .ausmPlus).disc pair s 0 with hD
  have hok : D.G.Ok := ⟨pair_conforming, pair_nozero, hs⟩
  have hu : ∀ i, i < D.G.m.nelem → Adm D.gas (two (shockA 0) (shockB 0) i) := fun i _ => by
    unfold two; split_ifs
    · exact shockA_adm 0
    · exact shockB_adm 0
  have hw := pair_weak hf .ausmPlus 0
  have hsh : Scheme.flux air .ausmPlus (shockA 0) (shockB 0) ![1, 0] = air.eulerFlux (shockA 0) ![1, 0] :=
    (C109_shock (shock_jump 0) (shock_supersonic 0) .ausmPlus).2 (Or.inr (Or.inr ⟨rfl, by simp [Gas.vel, shockA]⟩))
  have hface : D.G.nface = 7 := by show s.faces.length = 7; rw [hf]; rfl
  have hst : IsSteady D (two (shockA 0) (shockB 0)) := by
    refine steady_of_exact hok rfl (fun _ _ => rfl) hw.flux fun k hk => ?_
    rw [hface] at hk
    rcases (show k < 6 ∨ k = 6 by omega) with e | e
    · have e1 : beyond D (two (shockA 0) (shockB 0)) k = two (shockA 0) (shockB 0) (D.G.face k).left := by
        unfold beyond
        rw [show D.G.m.nbface = 6 from rfl, if_pos e]
        rfl
      rw [e1]
      exact C15_ausmPlus (hw.left k (by rw [hface]; omega)) _
    · subst e
      have h6 : beyond D (two (shockA 0) (shockB 0)) 6 = shockB 0 := by
        unfold beyond
        rw [show D.G.m.nbface = 6 from rfl, if_neg (by omega)]
        show two (shockA 0) (shockB 0) (faceAt s.faces 6).right = _
        rw [hf]; rfl
      have l6 : two (shockA 0) (shockB 0) (D.G.face 6).left = shockA 0 := by
        show two (shockA 0) (shockB 0) (faceAt s.faces 6).left = _
        rw [hf]; rfl
      have n6 : D.G.nrm 6 = ![1, 0] := by
        show fNrm (pair.coords (faceAt s.faces 6).n0) (pair.coords (faceAt s.faces 6).n1) = _
        rw [hf]
        show fNrm (pair.coords 1) (pair.coords 4) = _
        have hl : fLen (pair.coords 1) (pair.coords 4) = 1 := by norm_num [fLen, pair]
        unfold fNrm
        rw [hl]
        norm_num [pair]
      rw [h6, l6, n6]
      exact hsh
  have n3 : ∀ i, i < 2 → fNrm (nodeA pair i 3) (nodeB pair i 3) = -![1, 0] := fun i hi => by
    have hl : fLen (nodeA pair i 3) (nodeB pair i 3) = 1 := by
      obtain rfl | rfl : i = 0 ∨ i = 1 := by omega
      all_goals norm_num [fLen, nodeA, nodeB, pair]
    unfold fNrm
    rw [hl]
    obtain rfl | rfl : i = 0 ∨ i = 1 := by omega
    all_goals norm_num [nodeA, nodeB, pair]
  have e0 : air.eulerFlux (shockA 0) ![1, 0] 0 = 2 := by
    rw [eulerFlux_eq (shockA_adm 0).rho']
    simp [Gas.dirFlux, varsVn_def, Gas.vel, shockA]
  have f0 : Fed D (two (shockA 0) (shockB 0)) (enthalpy air (shockA 0)) 0 := by
    refine Fed.inflow (f := 3) (k := 5) (show 0 < 2 by omega) (show 3 < 4 by omega) (pair_across 3 (by decide +kernel)) ?_ ?_
    · have hgst : ghosts D (two (shockA 0) (shockB 0)) 5 = shockA 0 := by
        show two (shockA 0) (shockB 0) (faceAt s.faces 5).left = _
        rw [hf]; rfl
      unfold massOut
      rw [hgst]
      show Scheme.flux air .ausmPlus (shockA 0) (shockA 0) (fNrm (nodeA pair 0 3) (nodeB pair 0 3)) 0 < 0
      rw [n3 0 (by omega), C16_conservative air _ _ _ (by norm_num [air]) (shockA_adm 0) (shockA_adm 0) (by simp)]
      show - ausmPlus air (shockA 0) (shockA 0) ![1, 0] 0 < 0
      rw [C15_ausmPlus (shockA_adm 0), e0]
      norm_num
    · show enthalpy air (two (shockA 0) (shockB 0) (faceAt s.faces 5).left) = _
      rw [hf]; rfl
  have f1 : Fed D (two (shockA 0) (shockB 0)) (enthalpy air (shockA 0)) 1 := by
    refine Fed.cell (f := 3) (j := 0) (show 1 < 2 by omega) (show 3 < 4 by omega)
      ((⟨1, ⟨by decide +kernel, by decide +kernel⟩, ⟨by decide +kernel, by decide +kernel⟩, by simp, by decide +kernel⟩ : Across pair (1, 3) (.cell 0))) ?_ f0
    show Scheme.flux air .ausmPlus (shockB 0) (shockA 0) (fNrm (nodeA pair 1 3) (nodeB pair 1 3)) 0 < 0
    rw [n3 1 (by omega), C16_conservative air _ _ _ (by norm_num [air]) (shockA_adm 0) (shockB_adm 0) (by simp), hsh, e0]
    norm_num
  refine C111_steady (D := D) hok rfl (by show 4 ≤ 3 * air.g; norm_num [air]) (Or.inr rfl) rfl (fun i hi => ?_) hu (fun k hk => ⟨.extrapolation, rfl, trivial⟩) hst (fun i hi => ?_)
  · show 0 < (area pair i).getD 0
    rw [pair_area hi]; norm_num
  · have hi : i < 2 := hi
    obtain rfl | rfl : i = 0 ∨ i = 1 := by omega
    · exact f0
    · exact f1

end Par
end FVENS
