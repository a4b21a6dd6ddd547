import Verif.Cases.Out
import Verif.FV.DiffConvEx
import Verif.FV.DiffMaxEx
import Verif.FV.JacBoundary
import Verif.FV.SimilarEx
import Verif.FV.UnitsRun
import Verif.FV.ReflectEx
import Verif.FV.ChartVisc
import Verif.FV.ChartBc
import Verif.FV.Race
import Verif.FV.GradExact
import Verif.FV.MusclBound
import Verif.FV.Closed

/-!
# Concrete cases for the theorems on the discretisation

Applications of theorems from `Verif/FV/*` to concrete inputs that meet their hypotheses.
-/

namespace FVENS.Cases

open FVENS Msh FV Flux Finset Par Ode

/-! ## C41, C42, C45 -/

example : ∃ s, topological sq = .ok s ∧ assemble 2 s.faces (fun k => (k : ℝ) + 1) (fun _ => 0) 0 =
    0 - ∑ f ∈ range (sq.nnode 0), match s.elemface 0 f with
      | some k => if (faceAt s.faces k).left = 0 then (k : ℝ) + 1 else -((k : ℝ) + 1)
      | none => 0 := by
  obtain ⟨s, hs⟩ := sq_topological
  exact ⟨s, hs, C41_cell sq_check.conforming hs _ _ (by show 0 < 2; decide)⟩

/-- Two threads, each with an atomic addition to the same location. -/
example : ∃ c : Mach Unit ℤ, TReach (fun _ => 5) (fun t => if t < 2 then [⟨(), 1, true⟩] else []) c ∧ Finished c ∧ c.mem () = 7 := by
  obtain ⟨c, h1, h2, _⟩ := run_all 2 _ (TReach.start (mem := fun _ : Unit => (5 : ℤ)) (prog := fun t => if t < 2 then [⟨(), 1, true⟩] else []))
    (fun _ => rfl) (fun t ht => if_neg (by omega))
  refine ⟨c, h1, h2, ?_⟩
  rw [C42_atomic (n := 2) (fun t ht => if_neg (by omega)) (fun t u hu => ?_) h1 h2 ()]
  · simp [sum_range_succ, amtAt]
  · by_cases ht : t < 2
    · rw [if_pos ht] at hu; obtain rfl := List.mem_singleton.1 hu; rfl
    · rw [if_neg ht] at hu; cases hu

/-- Two threads, each with a plain addition to its own location. -/
example : ∃ c : Mach ℕ ℤ, TReach (fun _ => 5) (fun t => if t < 2 then [⟨t, 1, false⟩] else []) c ∧ Finished c ∧ c.mem 1 = 6 := by
  obtain ⟨c, h1, h2, _⟩ := run_all 2 _ (TReach.start (mem := fun _ : ℕ => (5 : ℤ)) (prog := fun t => if t < 2 then [⟨t, 1, false⟩] else []))
    (fun _ => rfl) (fun t ht => if_neg (by omega))
  refine ⟨c, h1, h2, ?_⟩
  rw [C42_race_free (n := 2) (fun t ht => if_neg (by omega)) ?_ h1 h2 1]
  · simp [sum_range_succ, amtAt]
  · intro t u hu _ t' hne u' hu' e
    by_cases ht : t < 2
    · replace hu : u ∈ if t < 2 then [(⟨t, 1, false⟩ : Upd ℕ ℤ)] else [] := hu
      rw [if_pos ht] at hu; obtain rfl := List.mem_singleton.1 hu
      replace hu' : u' ∈ if t' < 2 then [(⟨t', 1, false⟩ : Upd ℕ ℤ)] else [] := hu'
      by_cases ht' : t' < 2
      · rw [if_pos ht'] at hu'; obtain rfl := List.mem_singleton.1 hu'; exact hne e
      · rw [if_neg ht'] at hu'; cases hu'
    · replace hu : u ∈ if t < 2 then [(⟨t, 1, false⟩ : Upd ℕ ℤ)] else [] := hu
      rw [if_neg ht] at hu; cases hu

example : IsUnit (exGeo.lsMat 0).det := (Geo.C45_wls_invertible_iff exGeo_ok (by show 0 < 2; decide) exGeo_spans.2).2 exGeo_spans.1
example := Geo.C45_wls_linear (nv := 4) exGeo_ok (i := 1) (by show 1 < 2; decide) 2 (-3) (fun i v => (i : ℝ) * v) (fun k _ => k) (fun _ _ => 1) (fun _ _ => 0)
example := Geo.C45_wls_minimises (nv := 4) exGeo_ok (i := 0) (by show 0 < 2; decide) exGeo_spans.2 exGeo_spans.1 (fun i v => (i : ℝ) ^ 2 * v) (fun k _ => k)

example : ¬ ∀ (u ug : ℕ → Fin 4 → ℝ) (g : ℕ × Fin 2 × Fin 4 → ℝ), exGeo.GreenGaussPar 2 u ug g → ∀ i d j, g (i, d, j) = exGeo.greenGauss u ug i d j := by
  rw [Geo.C44_exact exGeo_ok exGeo_offMid (fun i hi => ?_) le_rfl (by norm_num)]
  · intro h
    obtain ⟨-, f0, -, f2, -⟩ := exGeo_face
    exact h.1 0 (by show 0 ∈ List.range 4; decide) 2 (by show 2 ∈ List.range 4; decide) (by decide) (by rw [f0, f2])
  · have hi : i < 2 := hi
    obtain rfl | rfl : i = 0 ∨ i = 1 := by omega
    all_goals norm_num [exGeo]

/-! ## C46–C49 -/

example := C47_venkatakrishnan (eps2 := 1 / 10) (mn := -2) (mx := 1) (by norm_num) (by norm_num) (by norm_num) [3, -5, 0, 1 / 2]
example := C47_venkatakrishnan_monotone (mn := -2) (mx := 1) (by norm_num) (by norm_num) [3, -5, 0, 1 / 2]
example : wenoGrad 1000 3 (fun j => if j < 3 then ![2, -1] else ![7, 7]) 0 [1, 5] = some ![2, -1] :=
  C49_linear (by norm_num) (by norm_num) fun j _ hj => if_pos hj

example : ∃ b, Geo.isleGeo.barthJespersen (fun i => i) 0 Geo.isleGeo.mid 0 = some b ∧ b (true, 0) = ((Geo.isleGeo.face 0).left : ℝ) := by
  obtain ⟨b, hb⟩ := Option.isSome_iff_exists.1 ((Geo.C48_exact Geo.isleGeo_ok 1 (fun i => i) 0 Geo.isleGeo.mid 0).1.2 rfl)
  have hn : 0 < Geo.isleGeo.nface := by
    have hf : Geo.isleGeo.s.faces = _ := Geo.isle_topological.choose_spec.2
    unfold Geo.nface; rw [hf]; decide
  exact ⟨b, hb, (Geo.C46_constant_limited Geo.isleGeo_ok 1 (fun _ _ => rfl) (Or.inl hb) hn).1⟩
example := Geo.C46_muscl exGeo_ok 3 ![2, -1] (u := fun i => Geo.lin 3 ![2, -1] (exGeo.rc i)) (ug := fun k => Geo.lin 3 ![2, -1] (exGeo.rcbp k)) (g := fun _ => ![2, -1])
  (fun _ _ => rfl) (fun _ _ => rfl) (fun _ _ => rfl) (k := 5) (by rw [exGeo_face.1]; decide)
example := Geo.C46_weno exGeo_ok (lam := 1000) (by norm_num) 3 ![2, -1] (u := fun i => Geo.lin 3 ![2, -1] (exGeo.rc i)) (g := fun _ => ![2, -1]) (gr := exGeo.mid)
  (fun _ _ => rfl) (fun _ _ => rfl) 0
example := Geo.C48_partial exGeo_ok (lam := 1000) (by norm_num) (fun i => i) 0 (fun i d => (i : ℝ) + d) exGeo.mid 0

example : ∃ b, Disc.exDisc.recon1 .muscl (fun i => i) (fun _ => 3) (fun _ => ![1, -2]) 0 = some b ∧ b (true, 4) ≤ 1 + overshoot := by
  obtain ⟨b, hb⟩ := Option.isSome_iff_exists.1 (Disc.recon1_isSome (D := Disc.exDisc) exGeo_ok (R := .muscl) trivial (by simp) (fun i => (i : ℝ)) (fun _ => 3) (fun _ => ![1, -2]) 0)
  refine ⟨b, hb, (C47_muscl (D := Disc.exDisc) exGeo_ok hb (k := 4) (by show 4 < exGeo.nface; rw [exGeo_face.1]; decide)).1.2.trans ?_⟩
  obtain ⟨-, -, -, -, -, f4, -⟩ := exGeo_face
  show max (((exGeo.face 4).left : ℕ) : ℝ) (exGeo.ur (fun i => (i : ℝ)) (fun _ => 3) 4) + _ ≤ _
  unfold Geo.ur
  rw [f4, if_neg (by show ¬ 4 < 4; decide)]
  norm_num

end FVENS.Cases
