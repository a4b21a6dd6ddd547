import Verif.FV.JacBoundary

/-!
# The approximate viscous Jacobian (C122)

`compute_viscous_flux_approximate_jacobian`, src/spatial/flow_spatial.cpp:448-484. The function is a member of the flow discretisation that no other code calls; the call at boundary faces is
commented out (lines 862-863).
-/

namespace FVENS
namespace FV

open Finset Flux Msh

namespace Disc

/-! ### Model -/

/-- `muRe/(rho*dist)`, src/spatial/flow_spatial.cpp:457-474. The unit vector `dr` computed there is not used. -/
noncomputable def approxWeight (D : Disc) (k : ℕ) (ul ur : St) : ℝ :=
  let muRe := if D.constVisc then D.gas.constViscosity else 1 / 2 * (D.gas.viscosityC ul + D.gas.viscosityC ur)
  let rho := 1 / 2 * (ul 0 + ur 0)
  muRe / (rho * cdist (D.G.rc (D.G.face k).left) (D.G.rc (D.G.face k).right))

/-- `compute_viscous_flux_approximate_jacobian`, src/spatial/flow_spatial.cpp:448-484: subtracts from the diagonals of both blocks. `none` if the centre of the cell on the right is not in the
array, which holds those of cells and connectivity ghost cells (line 455). -/
noncomputable def approxVisc (D : Disc) (k : ℕ) (ul ur : St) (B : FJ) : Option FJ :=
  if (D.G.face k).right < D.G.m.nelem + D.G.m.nconnface then
    some ⟨fun a b => if a = b then B.dfdl a b - D.approxWeight k ul ur else B.dfdl a b,
      fun a b => if a = b then B.dfdr a b - D.approxWeight k ul ur else B.dfdr a b⟩
  else none

/-! ### Specification -/

/-- Quadratic form of a block matrix over the cells. -/
def quad (N : ℕ) (A : ℕ × ℕ → Blk (Fin 4)) (x : ℕ → St) : ℝ := ∑ i ∈ range N, ∑ j ∈ range N, ∑ v, ∑ w, x i v * A (i, j) v w * x j w

/-! ### Proofs -/

variable {D : Disc}

/-- C122: the function may be used exactly at the faces that are not on the physical boundary: at the others, where the commented-out call is, it reads outside the array of centres. -/
theorem C122_defined_iff (h : D.G.Ok) {k : ℕ} (hk : k < D.G.nface) (ul ur : St) (B : FJ) :
    (D.approxVisc k ul ur B).isSome ↔ D.G.m.nbface ≤ k := by
  obtain ⟨-, -, h3, -, h5⟩ := h.kind hk
  unfold approxVisc
  constructor
  · intro hs
    by_contra hb
    have := h3 (by omega)
    rw [if_neg (by omega)] at hs
    cases hs
  · intro hb
    rw [if_pos (h5 hb)]
    rfl

theorem approxWeight_pos {k : ℕ} {ul ur : St} (hm : 0 < if D.constVisc then D.gas.constViscosity else 1 / 2 * (D.gas.viscosityC ul + D.gas.viscosityC ur))
    (hl : 0 < ul 0) (hr : 0 < ur 0) (hx : D.G.rc (D.G.face k).left ≠ D.G.rc (D.G.face k).right) : 0 < D.approxWeight k ul ur :=
  div_pos hm (mul_pos (by linarith) (cdist_pos hx))

/-- C122: it is never the derivative of the viscous flux: the mass flux by viscosity is zero whatever the states, but the first diagonal entries are changed. -/
theorem C122_not_derivative {k : ℕ} {ul ur : St} (hm : 0 < if D.constVisc then D.gas.constViscosity else 1 / 2 * (D.gas.viscosityC ul + D.gas.viscosityC ur))
    (hl : 0 < ul 0) (hr : 0 < ur 0) (hx : D.G.rc (D.G.face k).left ≠ D.G.rc (D.G.face k).right) {J : FJ}
    (hJ : D.approxVisc k ul ur ⟨fun _ _ => 0, fun _ _ => 0⟩ = some J) (n xl xr : V2) :
    ¬ IsFluxJac (viscous1 D.gas D.constVisc n xl xr) J ul ur := by
  intro hf
  have h0 : ∀ a b, viscous1 D.gas D.constVisc n xl xr a b 0 = 0 := fun a b => by rw [viscous1_eq]; rfl
  have h1 := (hf 0).2
  simp only [h0] at h1
  have := congrFun (h1.unique (HasGrad.const 0)) 0
  unfold approxVisc at hJ
  split_ifs at hJ with hb
  simp only [Option.some.injEq] at hJ
  rw [← hJ] at this
  simp at this
  exact (approxWeight_pos hm hl hr hx).ne' this

/-- C122: the matrix assembled from these blocks by any number of threads is that of a weighted graph: its quadratic form is the sum over the faces of weight times squared difference. -/
theorem C122_quadratic (h : D.G.Ok) (u : ℕ → St) {L U : ℕ → Blk (Fin 4)}
    (hLU : ∀ k, k < D.G.nface → D.G.m.nbface ≤ k → ∃ J, D.approxVisc k (u (D.G.face k).left) (u (D.G.face k).right) ⟨fun _ _ => 0, fun _ _ => 0⟩ = some J ∧
      (∀ a b, L k a b = J.dfdl a b * D.G.len k) ∧ ∀ a b, U k a b = J.dfdr a b * D.G.len k)
    {n : ℕ} {A : ℕ × ℕ → Blk (Fin 4)} (hA : AssembleJac D.G (numbering D.G.m false id) (fun _ _ _ => 0) L U n (fun _ => 0) A) (x : ℕ → St) :
    quad D.G.m.nelem A x = ∑ k ∈ (range D.G.nface).filter (fun k => D.G.m.nbface ≤ k), D.approxWeight k (u (D.G.face k).left) (u (D.G.face k).right) * D.G.len k *
      ∑ v, (if D.G.inner k then x (D.G.face k).left v - x (D.G.face k).right v else x (D.G.face k).left v) ^ 2 := by
  set N := D.G.m.nelem
  have hq : ∀ A B : ℕ × ℕ → Blk (Fin 4), quad N (A + B) x = quad N A x + quad N B x := fun A B => by
    simp only [quad, ← sum_add_distrib]
    exact sum_congr rfl fun i _ => sum_congr rfl fun j _ => sum_congr rfl fun v _ => sum_congr rfl fun w _ => by
      simp only [Pi.add_apply]; ring
  have hz : quad N (0 : ℕ × ℕ → Blk (Fin 4)) x = 0 := by simp [quad]
  have hsum : ∀ (s : Finset ℕ) (F : ℕ → ℕ × ℕ → Blk (Fin 4)), quad N (∑ k ∈ s, F k) x = ∑ k ∈ s, quad N (F k) x := by
    classical
    intro s F
    induction s using Finset.induction_on with
    | empty => simp [hz]
    | insert a s ha ih => rw [sum_insert ha, sum_insert ha, hq, ih]
  have hAe : A = ∑ k ∈ range D.G.nface, fun p => amtAt p (jacUpds D.G (numbering D.G.m false id) (fun _ _ _ => 0) L U k) := by
    funext p
    rw [C50_schedule h hA, zero_add, Finset.sum_apply]
  have hent : ∀ (a b : ℕ) (B : Blk (Fin 4)), quad N (fun p => amtAt p (ent (numbering D.G.m false id) a b B)) x =
      if a < N ∧ b < N then ∑ v, ∑ w, x a v * B v w * x b w else 0 := by
    intro a b B
    have hn : ∀ c i, numbering D.G.m false id c = some i ↔ c < N ∧ c = i := fun c i => by
      unfold numbering
      by_cases hc : c < D.G.m.nelem <;> simp [hc, N]
    have e : ∀ i j v w, amtAt (i, j) (ent (numbering D.G.m false id) a b B) v w = if (a < N ∧ a = i) ∧ b < N ∧ b = j then B v w else 0 := fun i j v w => by
      rw [amtAt_ent]; simp only [hn]; split_ifs <;> rfl
    simp only [quad, e]
    by_cases hab : a < N ∧ b < N
    · rw [if_pos hab, sum_eq_single a, sum_eq_single b]
      · simp [hab.1, hab.2]
      · intro j _ hj; simp [hj.symm]
      · intro hb; exact absurd (mem_range.2 hab.2) hb
      · intro i _ hi; simp [hi.symm]
      · intro ha; exact absurd (mem_range.2 hab.1) ha
    · rw [if_neg hab]
      refine sum_eq_zero fun i _ => sum_eq_zero fun j _ => sum_eq_zero fun v _ => sum_eq_zero fun w _ => ?_
      rw [if_neg (fun c => hab ⟨c.1.1, c.2.1⟩)]; ring
  have happ : ∀ a b : List (Upd (ℕ × ℕ) (Blk (Fin 4))), quad N (fun p => amtAt p (a ++ b)) x = quad N (fun p => amtAt p a) x + quad N (fun p => amtAt p b) x :=
    fun a b => by rw [← hq]; congr 1; funext p; rw [amtAt_append]; rfl
  rw [hAe, hsum, sum_filter]
  refine sum_congr rfl fun k hk => ?_
  have hk := mem_range.1 hk
  obtain ⟨k1, k2, k3, k4, k5⟩ := h.kind hk
  unfold jacUpds
  by_cases hb : k < D.G.m.nbface
  · rw [if_neg (show ¬ D.G.m.nbface ≤ k by omega)]
    simp only [hb, if_true]
    rw [hent, if_pos ⟨k1, k1⟩]
    simp
  · have hb' : D.G.m.nbface ≤ k := by omega
    rw [if_pos hb']
    obtain ⟨J, hJ, hL, hU⟩ := hLU k hk hb'
    unfold approxVisc at hJ
    rw [if_pos (k5 hb'), Option.some.injEq] at hJ
    subst hJ
    simp only at hL hU
    set W := D.approxWeight k (u (D.G.face k).left) (u (D.G.face k).right)
    have hB : ∀ (B : Blk (Fin 4)), (∀ a b, B a b = (if a = b then 0 - W else 0) * D.G.len k) → ∀ y z : St,
        ∑ v, ∑ w, y v * B v w * z w = -(W * D.G.len k * ∑ v, y v * z v) := fun B hBe y z => by
      simp [hBe, Fin.sum_univ_four]; ring
    have hN : ∀ (B : Blk (Fin 4)) (y z : St), ∑ v, ∑ w, y v * (-B) v w * z w = -∑ v, ∑ w, y v * B v w * z w := fun B y z => by
      simp [Fin.sum_univ_four]; ring
    by_cases hin : D.G.inner k
    · simp only [hb, hin, if_true, if_false, happ, hent]
      have kr := k4.1 hin
      rw [if_pos ⟨kr, k1⟩, if_pos ⟨k1, kr⟩, if_pos ⟨k1, k1⟩, if_pos ⟨kr, kr⟩, hN, hN, hB _ hL, hB _ hU, hB _ hL, hB _ hU]
      simp only [Fin.sum_univ_four]
      ring
    · simp only [hb, hin, if_false, happ, hent]
      have kr : ¬ (D.G.face k).right < N := fun e => hin (k4.2 e)
      rw [if_neg (fun c => kr c.2), if_pos ⟨k1, k1⟩, hN, hB _ hL]
      simp only [Fin.sum_univ_four]
      ring

/-- C122: so the approximation is dissipative: its quadratic form is not negative where the weights are not. -/
theorem C122_dissipative (h : D.G.Ok) (u : ℕ → St) {L U : ℕ → Blk (Fin 4)}
    (hLU : ∀ k, k < D.G.nface → D.G.m.nbface ≤ k → ∃ J, D.approxVisc k (u (D.G.face k).left) (u (D.G.face k).right) ⟨fun _ _ => 0, fun _ _ => 0⟩ = some J ∧
      (∀ a b, L k a b = J.dfdl a b * D.G.len k) ∧ ∀ a b, U k a b = J.dfdr a b * D.G.len k)
    (hu : ∀ i, 0 < u i 0) (hc : D.constVisc = true) (hR : 0 < D.gas.Reinf)
    {n : ℕ} {A : ℕ × ℕ → Blk (Fin 4)} (hA : AssembleJac D.G (numbering D.G.m false id) (fun _ _ _ => 0) L U n (fun _ => 0) A) (x : ℕ → St) :
    0 ≤ quad D.G.m.nelem A x := by
  rw [C122_quadratic h u hLU hA]
  refine sum_nonneg fun k hk => mul_nonneg (mul_nonneg ?_ (len_pos h (mem_range.1 (mem_filter.1 hk).1)).le) (sum_nonneg fun v _ => sq_nonneg _)
  unfold approxWeight
  simp only [hc, if_true, Gas.constViscosity]
  have h1 := hu (D.G.face k).left
  have h2 := hu (D.G.face k).right
  have h3 : 0 ≤ cdist (D.G.rc (D.G.face k).left) (D.G.rc (D.G.face k).right) := Real.sqrt_nonneg _
  positivity

/-- Concrete case: the example mesh (two cells and one connectivity ghost cell), air of constant viscosity. -/
noncomputable def exApprox : Disc := { exDisc with constVisc := true }

/-- The blocks exist on the example mesh, for all threads. -/
example : ∃ (L U : ℕ → Blk (Fin 4)) (A : ℕ × ℕ → Blk (Fin 4)), AssembleJac exGeo (numbering exGeo.m false id) (fun _ _ _ => 0) L U 3 (fun _ => 0) A ∧
    ∀ x, 0 ≤ quad exGeo.m.nelem A x := by
  let J : ℕ → FJ := fun k => (exApprox.approxVisc k uEx uEx ⟨fun _ _ => 0, fun _ _ => 0⟩).getD ⟨fun _ _ => 0, fun _ _ => 0⟩
  obtain ⟨A, hA⟩ := assembleJac_exists (G := exGeo) (gcol := numbering exGeo.m false id) (Lb := fun _ _ _ => 0)
    (L := fun k a b => (J k).dfdl a b * exGeo.len k) (U := fun k a b => (J k).dfdr a b * exGeo.len k) (n := 3) (by norm_num) (fun _ => 0)
  refine ⟨_, _, A, hA, fun x => C122_dissipative (D := exApprox) exGeo_ok (fun _ => uEx) (fun k hk hb => ?_) (fun _ => by norm_num [uEx]) rfl
    (by norm_num [exApprox, exDisc, air]) hA x⟩
  obtain ⟨j, hj⟩ := Option.isSome_iff_exists.1 ((C122_defined_iff (D := exApprox) exGeo_ok hk uEx uEx ⟨fun _ _ => 0, fun _ _ => 0⟩).2 hb)
  exact ⟨j, hj, fun a b => by simp only [J, hj]; rfl, fun a b => by simp only [J, hj]; rfl⟩

/-- The states and centres of its interior face. -/
example : ∃ J, exApprox.approxVisc 4 uEx uEx ⟨fun _ _ => 0, fun _ _ => 0⟩ = some J ∧
    ∀ n xl xr, ¬ IsFluxJac (viscous1 exApprox.gas exApprox.constVisc n xl xr) J uEx uEx := by
  obtain ⟨j, hj⟩ := Option.isSome_iff_exists.1 ((C122_defined_iff (D := exApprox) exGeo_ok (k := 4) (by show 4 < exGeo.nface; rw [exGeo_face.1]; decide)
    uEx uEx ⟨fun _ _ => 0, fun _ _ => 0⟩).2 (le_refl 4))
  refine ⟨j, hj, fun n xl xr => C122_not_derivative ?_ (by norm_num [uEx]) (by norm_num [uEx]) ?_ hj n xl xr⟩
  · norm_num [exApprox, exDisc, Gas.constViscosity, air]
  · show exGeo.rc (exGeo.face 4).left ≠ exGeo.rc (exGeo.face 4).right
    rw [exGeo_face.2.2.2.2.2.1]
    intro e
    have := congrFun e 0
    norm_num [exGeo] at this

/-- C122: at a boundary face of the example mesh the function reads outside the array. -/
theorem C122_boundary_refuted : ∃ (D : Disc) (k : ℕ), D.G.Ok ∧ k < D.G.m.nbface ∧ ∀ ul ur B, D.approxVisc k ul ur B = none :=
  ⟨exApprox, 0, exGeo_ok, by show 0 < 4; decide, fun ul ur B => by
    have := (C122_defined_iff (D := exApprox) exGeo_ok (k := 0) (by show 0 < exGeo.nface; rw [exGeo_face.1]; decide) ul ur B).not.2 (by show ¬ 4 ≤ 0; decide)
    simpa using this⟩

end Disc
end FV
end FVENS
