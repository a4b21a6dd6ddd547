import Verif.Par.Explicit
import Verif.Lin.Matrix

/-!
# Matrix-free products on several processes (C121)

`MatrixFreeSpatialJacobian::apply`, src/linalg/alinalg.cpp:142-233, with the first-order discretisation: on one process, and on `n` processes that hold the subdomains cut out by `restrict`.
The vectors `aux` and `yg` are made by `VecDuplicate`; what the ghost blocks of `yg` then contain is a parameter.
-/

namespace FVENS
namespace Par

open Msh FV Flux Ode Lin
open Finset (range)

/-! ### Model -/

/-- Perturbed state, src/linalg/alinalg.cpp:170, 181. -/
def perturbed (pert : ℝ) (u x : ℕ → St) : ℕ → St := fun i v => u i v + pert * x i v

open Classical in
/-- `apply` on one process, src/linalg/alinalg.cpp:142-233: `u`, `res`, `mdt` are the state, its residual and the pseudo-time factors given to `set_state`. `none` where the
code divides by zero or the discretisation gives no residual. -/
noncomputable def mfOne (D : Disc) (eps : ℝ) (u res : ℕ → St) (mdt : ℕ → ℝ) (x : ℕ → St) : Option (ℕ → St) :=
  let xnorm := Real.sqrt (∑ i ∈ range D.G.m.nelem, ∑ v, x i v ^ 2)
  let pert := eps / xnorm
  if xnorm = 0 ∨ pert = 0 then none
  else (D.residual1 (perturbed pert u x) 0).map fun o i v => mdt i * x i v + (-o.res i v + res i v) / pert

/-- Local array of `yg` before the residual is computed, src/linalg/alinalg.cpp:178-187: the first loop clears the entries of the rank's cells; the second, meant for the ghost blocks, runs
over entries numbered from the number of cells on. `gh` is what `VecDuplicate` left in the array. -/
noncomputable def ygStart (S : Sub) (gh : ℕ → St) (b : ℕ) : St := fun v =>
  if 4 * b + v < 4 * S.mesh.nelem ∨ (S.mesh.nelem ≤ 4 * b + v ∧ 4 * b + v < S.mesh.nelem + S.mesh.nconnface) then 0 else gh b v

section world
variable (P : Settings) (gm : Mesh) (s : FState) (dist : ℕ → ℕ) (n : ℕ)

/-- Local array of `yg` of rank `r` after `compute_residual`, src/linalg/alinalg.cpp:192-196; the ghost blocks of `aux` are up to date. -/
noncomputable def ygEval (gh : ℕ → ℕ → St) (aux : ℕ → ℕ → St) (r : ℕ) : Option (ℕ → St) :=
  match restrict gm s dist r with
  | .ok S => match topological S.mesh with
    | .ok s' => ((P.rank gm s dist n r S s').residual1 (rankArray gm s dist n aux r S) (ygStart S (gh r))).map fun o => o.res
    | _ => none
  | _ => none

/-- The same as a total function. -/
noncomputable def ygRes (gh : ℕ → ℕ → St) (aux : ℕ → ℕ → St) (r : ℕ) : ℕ → St := (ygEval P gm s dist n gh aux r).getD 0

/-- Norm of a distributed vector, `VecNorm` of src/linalg/alinalg.cpp:160. -/
noncomputable def normAll (X : ℕ → ℕ → St) : ℝ := Real.sqrt (∑ r ∈ range n, ∑ l ∈ range (localSize gm s dist r), ∑ v, X r l v ^ 2)

open Classical in
/-- `apply` on `n` processes, src/linalg/alinalg.cpp:142-233. -/
noncomputable def mfRanks (eps : ℝ) (U Rs : ℕ → ℕ → St) (mdt : ℕ → ℕ → ℝ) (gh X : ℕ → ℕ → St) : Option (ℕ → ℕ → St) :=
  let xnorm := normAll gm s dist n X
  let pert := eps / xnorm
  if xnorm = 0 ∨ pert = 0 then none
  else if ∀ r, r < n → (ygEval P gm s dist n gh (fun q => perturbed pert (U q) (X q)) r).isSome then
    some fun r l v => mdt r l * X r l v +
      (-ghostAdd gm s dist n (ygRes P gm s dist n gh fun q => perturbed pert (U q) (X q)) r l v + Rs r l v) / pert
  else none

end world

/-! ### Specification -/

/-- What the ghost blocks of the other ranks contribute to cell `g`: the sum of the blocks that stand for `g`, as they were before the residual was computed. -/
noncomputable def stray (n : ℕ) (S : ℕ → Sub) (gh : ℕ → ℕ → St) (g : ℕ) : St :=
  ∑ q ∈ range n, ∑ ic ∈ range (S q).mesh.nconnface, if rowCell (S q) ((S q).mesh.nelem + ic) = g then ygStart (S q) (gh q) ((S q).mesh.nelem + ic) else 0

/-! ### Proofs -/

theorem residual1_start (D : Disc) (u r : ℕ → St) : D.residual1 u r = (D.residual1 u 0).map fun o => ⟨o.uL, o.uR, fun l => r l + o.res l⟩ := by
  unfold Disc.residual1
  split_ifs
  · simp only [Option.map_some, Disc.fluxes]
    congr 2
    funext l
    rw [assemble_eq, assemble_eq, Pi.zero_apply, zero_add]
  · rfl

theorem ygEval_eq (P : Settings) (gm : Mesh) (s : FState) (dist : ℕ → ℕ) (n : ℕ) (gh aux : ℕ → ℕ → St) {r : ℕ} {S : Sub} (hS : restrict gm s dist r = .ok S) :
    ygEval P gm s dist n gh aux r = (rankEval P gm s dist n aux r).map fun p l => ygStart S (gh r) l + p.2.res l := by
  unfold ygEval rankEval
  simp only [hS]
  cases topological S.mesh with
  | ok s' =>
    simp only [residual1_start _ _ (ygStart S (gh r)), Option.map_map]
    rfl
  | _ => rfl

theorem ygStart_own (S : Sub) (gh : ℕ → St) {l : ℕ} (hl : l < S.mesh.nelem) : ygStart S gh l = 0 := by
  funext v
  unfold ygStart
  rw [if_pos (.inl (by have := v.isLt; omega))]
  rfl

theorem ygStart_zero (S : Sub) (b : ℕ) : ygStart S (fun _ => 0) b = 0 := by
  funext v
  unfold ygStart
  split_ifs <;> rfl

section
variable {gm : Mesh} {s : FState} {dist : ℕ → ℕ} (hc : Conforming gm) (hn : gm.nconnface = 0) (ht : gm.nbtag ≤ 4) (h : topological gm = .ok s)
include hc hn ht h

theorem normAll_eq {n : ℕ} (hd : ∀ g, g < gm.nelem → dist g < n) {x : ℕ → St} {X : ℕ → ℕ → St} (hX : Represents gm s dist X x) :
    normAll gm s dist n X = Real.sqrt (∑ i ∈ range gm.nelem, ∑ v, x i v ^ 2) := by
  have hex : ∀ r, ∃ S, restrict gm s dist r = .ok S := fun r => by
    obtain ⟨S, hS, -⟩ := restrict_spec hc hn ht h dist r
    exact ⟨S, hS⟩
  choose S hS using hex
  unfold normAll
  congr 1
  rw [← sum_ranks hc hn ht h hd hS fun i => ∑ v, x i v ^ 2]
  refine Finset.sum_congr rfl fun r _ => ?_
  obtain ⟨S', hS', hsub, -⟩ := restrict_spec hc hn ht h dist r
  rw [hS r] at hS'; cases hS'
  rw [show localSize gm s dist r = (S r).mesh.nelem by simp only [localSize, hS]]
  refine Finset.sum_congr rfl fun l hl => ?_
  have hl' : l < (S r).cells.length := by rw [← hsub.nelem]; exact Finset.mem_range.1 hl
  have hg : (S r).cells[l]? = some ((S r).cells.getD l 0) := by
    rw [List.getD_eq_getElem?_getD, List.getElem?_eq_getElem hl', Option.getD_some]
  rw [hX r (S r) (hS r) l _ hg]

omit hc hn ht h in
theorem perturbed_represents {u x : ℕ → St} {U X : ℕ → ℕ → St} (hU : Represents gm s dist U u) (hX : Represents gm s dist X x) (pert : ℝ) :
    Represents gm s dist (fun q => perturbed pert (U q) (X q)) (perturbed pert u x) := by
  intro r S hS l g hl
  funext v
  show U r l v + pert * X r l v = _
  rw [hU r S hS l g hl, hX r S hS l g hl]
  rfl

variable (hz : NoZeroFace gm) (hall : AllRegistered gm s dist) {n : ℕ} (hd : ∀ g, g < gm.nelem → dist g < n)
  (hmono : ∀ i j, i < j → j < gm.nelem → dist i ≤ dist j) (P : Settings) (hb : (P.disc gm s 0).BcOk) (hg : 4 ≤ 3 * P.gas.g)
include hz hall hd hmono hb hg

/-- C121: whatever the ghost blocks of the auxiliary vector contain: on any number of processes, for assignments of cells in the order of their numbers, the product is that of a single process,
except that each cell gets what was left in the ghost blocks standing for it, divided by the step length. -/
theorem C121_product_partial {S : ℕ → Sub} (hS : ∀ r, restrict gm s dist r = .ok (S r)) {eps : ℝ} (he : eps ≠ 0) {u res x : ℕ → St} {mdt : ℕ → ℝ} {U Rs X : ℕ → ℕ → St} {M : ℕ → ℕ → ℝ}
    (hU : Represents gm s dist U u) (hR : Represents gm s dist Rs res) (hM : Represents gm s dist M mdt) (hX : Represents gm s dist X x) (gh : ℕ → ℕ → St)
    {pert : ℝ} (hp : pert = eps / Real.sqrt (∑ i ∈ range gm.nelem, ∑ v, x i v ^ 2)) (hx : ∃ i, i < gm.nelem ∧ x i ≠ 0) (ha : ∀ i, i < gm.nelem → Adm P.gas (perturbed pert u x i)) :
    ∃ y Y, mfOne (P.disc gm s 0) eps u res mdt x = some y ∧ mfRanks P gm s dist n eps U Rs M gh X = some Y ∧
      Represents gm s dist Y fun g v => y g v - stray n S gh g v / pert := by
  have hnorm : Real.sqrt (∑ i ∈ range gm.nelem, ∑ v, x i v ^ 2) ≠ 0 := by
    obtain ⟨i, hi, hxi⟩ := hx
    obtain ⟨v, hv⟩ := Function.ne_iff.1 hxi
    refine (Real.sqrt_pos.2 (Finset.sum_pos' (fun j _ => Finset.sum_nonneg fun v _ => sq_nonneg _) ⟨i, Finset.mem_range.2 hi, ?_⟩)).ne'
    refine Finset.sum_pos' (fun v _ => sq_nonneg _) ⟨v, Finset.mem_univ v, ?_⟩
    have : x i v ≠ 0 := hv
    positivity
  have hpne : pert ≠ 0 := by rw [hp]; exact div_ne_zero he hnorm
  have haux := perturbed_represents hU hX pert
  obtain ⟨o, ho, hr⟩ := rankEval_spec hc hn ht h hz hall hd hmono P hb hg ha haux
  have hev : ∀ r, ∃ D o', rankEval P gm s dist n (fun q => perturbed pert (U q) (X q)) r = some (D, o') ∧ (∀ l, l < (S r).mesh.nelem → o'.res l = o.res ((S r).cells.getD l 0)) ∧
      ∀ l, (S r).mesh.nelem ≤ l → o'.res l = 0 := fun r => by
    obtain ⟨S', D, o', h1, h2, -, h3, h4⟩ := hr r
    rw [hS r] at h1; cases h1
    exact ⟨D, o', h2, fun l hl => (h3 l hl).1, h4⟩
  choose D o' hev hcell hghost using hev
  have hyg : ∀ r, ygEval P gm s dist n gh (fun q => perturbed pert (U q) (X q)) r = some fun l => ygStart (S r) (gh r) l + (o' r).res l := fun r => by
    rw [ygEval_eq _ _ _ _ _ _ _ (hS r), hev r, Option.map_some]
  have hygr : ∀ r, ygRes P gm s dist n gh (fun q => perturbed pert (U q) (X q)) r = fun l => ygStart (S r) (gh r) l + (o' r).res l := fun r => by
    rw [ygRes, hyg r, Option.getD_some]
  have hn' := normAll_eq hc hn ht h hd hX
  refine ⟨fun i v => mdt i * x i v + (-o.res i v + res i v) / pert, fun r l v => M r l * X r l v + (-ghostAdd gm s dist n (ygRes P gm s dist n gh fun q => perturbed pert (U q) (X q)) r l v + Rs r l v) / pert, ?_, ?_, ?_⟩
  · unfold mfOne
    simp only [show (P.disc gm s 0).G.m.nelem = gm.nelem from rfl, ← hp]
    rw [if_neg (by rintro (h1 | h1); exacts [hnorm h1, hpne h1]), ho, Option.map_some]
  · unfold mfRanks
    simp only [hn', ← hp]
    rw [if_neg (by rintro (h1 | h1); exacts [hnorm h1, hpne h1]), if_pos fun r _ => by rw [hyg r]; rfl]
  · intro r S' hS' l g hl
    rw [hS r] at hS'; cases hS'
    obtain ⟨S', hS', hsub, -⟩ := restrict_spec hc hn ht h dist r
    rw [hS r] at hS'; cases hS'
    have hll : l < (S r).mesh.nelem := by rw [hsub.nelem]; exact (List.getElem?_eq_some_iff.1 hl).1
    have hgg : (S r).cells.getD l 0 = g := by rw [List.getD_eq_getElem?_getD, hl, Option.getD_some]
    have hadd : ghostAdd gm s dist n (ygRes P gm s dist n gh fun q => perturbed pert (U q) (X q)) r l = o.res g + stray n S gh g := by
      rw [C88_ghost_sum_partial hc hn ht h hmono hS _ hl, hygr r]
      simp only
      rw [ygStart_own _ _ hll, zero_add, hcell r l hll, hgg]
      congr 1
      unfold stray
      refine Finset.sum_congr rfl fun q _ => Finset.sum_congr rfl fun ic _ => ?_
      rw [hygr q]
      simp only
      rw [hghost q _ (by omega), add_zero]
    funext v
    simp only
    rw [hadd, hM r (S r) (hS r) l g hl, hX r (S r) (hS r) l g hl, hR r (S r) (hS r) l g hl, Pi.add_apply]
    field_simp
    ring

/-- C121: with ghost blocks that are zero when made, the product is that of a single process. -/
theorem C121_zeroed_partial {eps : ℝ} (he : eps ≠ 0) {u res x : ℕ → St} {mdt : ℕ → ℝ} {U Rs X : ℕ → ℕ → St} {M : ℕ → ℕ → ℝ}
    (hU : Represents gm s dist U u) (hR : Represents gm s dist Rs res) (hM : Represents gm s dist M mdt) (hX : Represents gm s dist X x)
    {pert : ℝ} (hp : pert = eps / Real.sqrt (∑ i ∈ range gm.nelem, ∑ v, x i v ^ 2)) (hx : ∃ i, i < gm.nelem ∧ x i ≠ 0) (ha : ∀ i, i < gm.nelem → Adm P.gas (perturbed pert u x i)) :
    ∃ y Y, mfOne (P.disc gm s 0) eps u res mdt x = some y ∧ mfRanks P gm s dist n eps U Rs M (fun _ _ => 0) X = some Y ∧ Represents gm s dist Y y := by
  have hex : ∀ r, ∃ S, restrict gm s dist r = .ok S := fun r => by
    obtain ⟨S, hS, -⟩ := restrict_spec hc hn ht h dist r
    exact ⟨S, hS⟩
  choose S hS using hex
  obtain ⟨y, Y, h1, h2, h3⟩ := C121_product_partial hc hn ht h hz hall hd hmono P hb hg hS he hU hR hM hX (fun _ _ => 0) hp hx ha
  refine ⟨y, Y, h1, h2, ?_⟩
  have : ∀ g, stray n S (fun _ _ => 0) g = 0 := fun g => by
    unfold stray
    refine Finset.sum_eq_zero fun q _ => Finset.sum_eq_zero fun ic _ => ?_
    rw [show ygStart (S q) (fun _ => 0) ((S q).mesh.nelem + ic) = 0 from ygStart_zero _ _]
    simp
  simpa [this] using h3

/-- C121: the product is that of a single process exactly if what was left in the ghost blocks cancels for every cell. -/
theorem C121_iff {S : ℕ → Sub} (hS : ∀ r, restrict gm s dist r = .ok (S r)) {eps : ℝ} (he : eps ≠ 0) {u res x : ℕ → St} {mdt : ℕ → ℝ} {U Rs X : ℕ → ℕ → St} {M : ℕ → ℕ → ℝ}
    (hU : Represents gm s dist U u) (hR : Represents gm s dist Rs res) (hM : Represents gm s dist M mdt) (hX : Represents gm s dist X x) (gh : ℕ → ℕ → St)
    {pert : ℝ} (hp : pert = eps / Real.sqrt (∑ i ∈ range gm.nelem, ∑ v, x i v ^ 2)) (hx : ∃ i, i < gm.nelem ∧ x i ≠ 0) (ha : ∀ i, i < gm.nelem → Adm P.gas (perturbed pert u x i)) :
    (∃ y Y, mfOne (P.disc gm s 0) eps u res mdt x = some y ∧ mfRanks P gm s dist n eps U Rs M gh X = some Y ∧ Represents gm s dist Y y) ↔
      ∀ g, g < gm.nelem → stray n S gh g = 0 := by
  obtain ⟨y, Y, h1, h2, h3⟩ := C121_product_partial hc hn ht h hz hall hd hmono P hb hg hS he hU hR hM hX gh hp hx ha
  have hpne : pert ≠ 0 := by
    intro h0
    simp [mfOne, ← hp, h0, show (P.disc gm s 0).G.m.nelem = gm.nelem from rfl] at h1
  constructor
  · rintro ⟨y', Y', e1, e2, e3⟩ g hgn
    rw [h1] at e1; cases e1
    rw [h2] at e2; cases e2
    obtain ⟨S', hS', hsub, -⟩ := restrict_spec hc hn ht h dist (dist g)
    rw [hS] at hS'; cases hS'
    obtain ⟨l, hl⟩ := List.mem_iff_getElem?.1 ((hsub.cells g).2 ⟨hgn, rfl⟩)
    have f1 := h3 _ _ (hS _) l g hl
    have f2 := e3 _ _ (hS _) l g hl
    funext v
    have f3 := congrFun (f2.symm.trans f1) v
    simp only at f3
    have : stray n S gh g v / pert = 0 := by linarith
    exact (div_eq_zero_iff.1 this).resolve_right hpne
  · intro hs
    refine ⟨y, Y, h1, h2, fun r S' hS' l g hl => ?_⟩
    have hS'' := hS'
    rw [hS r] at hS''; cases hS''
    obtain ⟨S', hS'', hsub, -⟩ := restrict_spec hc hn ht h dist r
    rw [hS r] at hS''; cases hS''
    have hgn : g < gm.nelem := ((hsub.cells g).1 (List.mem_of_getElem? hl)).1
    rw [h3 r _ hS' l g hl]
    funext v
    simp only
    rw [hs g hgn, Pi.zero_apply, zero_div, sub_zero]

end

/-- C121: the product of one process is the directional difference of C60 for the residual of the whole mesh. -/
theorem C121_one (D : Disc) (hb : D.BcOk) (eps : ℝ) (u res : ℕ → St) (mdt : ℕ → ℝ) (x : ℕ → St) :
    (mfOne D eps u res mdt x).map (fun y (i : Fin D.G.m.nelem × Fin 4) => y i.1 i.2) =
      mfApply (fun (w : Fin D.G.m.nelem × Fin 4 → ℝ) i =>
          ((D.residual1 (fun j v => if hj : j < D.G.m.nelem then w (⟨j, hj⟩, v) else perturbed (eps / Real.sqrt (∑ i : Fin D.G.m.nelem × Fin 4, x i.1 i.2 ^ 2)) u x j v) 0).map
            fun o => o.res i.1 i.2).getD 0)
        eps (fun i => u i.1 i.2) (fun i => res i.1 i.2) 0 (fun i => mdt i.1) (fun i => x i.1 i.2) := by
  have hs : ∑ i ∈ range D.G.m.nelem, ∑ v, x i v ^ 2 = ∑ i : Fin D.G.m.nelem × Fin 4, x i.1 i.2 ^ 2 := by
    rw [Fintype.sum_prod_type, Finset.sum_range]
  unfold mfOne mfApply
  simp only [hs]
  split_ifs with h0
  · rfl
  · have hres : ∀ w, ∃ o, D.residual1 w 0 = some o := fun w => ⟨_, by unfold Disc.residual1; rw [if_pos hb]⟩
    obtain ⟨o, ho⟩ := hres (perturbed (eps / Real.sqrt (∑ i : Fin D.G.m.nelem × Fin 4, x i.1 i.2 ^ 2)) u x)
    have e : (fun (j : ℕ) (v : Fin 4) => if hj : j < D.G.m.nelem then
        ((fun i : Fin D.G.m.nelem × Fin 4 => u i.1 i.2) + (eps / Real.sqrt (∑ i : Fin D.G.m.nelem × Fin 4, x i.1 i.2 ^ 2)) • fun i : Fin D.G.m.nelem × Fin 4 => x i.1 i.2) (⟨j, hj⟩, v)
        else perturbed (eps / Real.sqrt (∑ i : Fin D.G.m.nelem × Fin 4, x i.1 i.2 ^ 2)) u x j v) =
        perturbed (eps / Real.sqrt (∑ i : Fin D.G.m.nelem × Fin 4, x i.1 i.2 ^ 2)) u x := by
      funext j v
      split_ifs
      · rfl
      · rfl
    rw [e, ho]
    simp

/-! ### Examples -/

/-- The direction of the examples: densities only. -/
def denser (_ : ℕ) : St := ![1, 0, 0, 0]

theorem denser_adm {pert : ℝ} (hp : 0 < pert) (i : ℕ) : Adm air (perturbed pert bump denser i) := by
  have : perturbed pert bump denser i = rest ((if i = 1 then 2 else 1) + pert) := by
    funext v
    unfold perturbed bump denser rest
    split_ifs <;> fin_cases v <;> simp
  rw [this]
  refine rest_adm ?_
  split_ifs <;> positivity

theorem denser_pert {eps : ℝ} (he : 0 < eps) : 0 < eps / Real.sqrt (∑ i ∈ range FV.Geo.cross.nelem, ∑ v, denser i v ^ 2) := by
  refine div_pos he (Real.sqrt_pos.2 ?_)
  rw [show FV.Geo.cross.nelem = 4 by decide +kernel]
  simp [denser, Fin.sum_univ_four]

/-- Hypotheses of `C121_zeroed_partial` are met: four triangles on two ranks, any residual, pseudo-time factors and positive step length. -/
example {eps : ℝ} (he : 0 < eps) (res : ℕ → St) (mdt : ℕ → ℝ) : ∃ s y Y, topological FV.Geo.cross = .ok s ∧
    mfOne ((air1 (rest 1)).disc FV.Geo.cross s 0) eps bump res mdt denser = some y ∧
    mfRanks (air1 (rest 1)) FV.Geo.cross s (fun i => i / 2) 2 eps (split FV.Geo.cross s (fun i => i / 2) bump) (split FV.Geo.cross s (fun i => i / 2) res)
      (split FV.Geo.cross s (fun i => i / 2) mdt) (fun _ _ => 0) (split FV.Geo.cross s (fun i => i / 2) denser) = some Y ∧ Represents FV.Geo.cross s (fun i => i / 2) Y y := by
  obtain ⟨s, hs, -⟩ := FV.Geo.cross_topological
  have hne : FV.Geo.cross.nelem = 4 := by decide +kernel
  obtain ⟨y, Y, h⟩ := C121_zeroed_partial (n := 2) cross_conforming rfl (by decide +kernel) hs FV.Geo.cross_nozero (cross_all hs _) (dist := fun i => i / 2)
    (fun g hg => by show g / 2 < 2; omega) (fun i j h _ => Nat.div_le_div_right h.le) (air1 (rest 1)) (fun k _ => rfl) (by norm_num [air1, air]) he.ne'
    (split_represents _ _ _ bump) (split_represents _ _ _ res) (split_represents _ _ _ mdt) (split_represents _ _ _ denser) rfl
    ⟨0, by omega, fun h0 => by have := congrFun h0 0; simp [denser] at this⟩ fun i _ => denser_adm (denser_pert he) i
  exact ⟨s, y, Y, hs, h⟩

/-- Rank 0 of the four triangles: two cells, two ghost blocks, the first of which stands for cell 3. -/
noncomputable def halfCheck : Bool := match topological FV.Geo.cross with
  | .ok s => (match restrict FV.Geo.cross s (fun i => i / 2) 0 with
    | .ok S => decide (S.mesh.nelem = 2 ∧ S.mesh.nconnface = 2 ∧ S.mesh.connface 0 3 = 3)
    | _ => false)
  | _ => false

theorem halfCheck_true : halfCheck = true := by decide +kernel

/-- C121: the loop meant to clear the ghost blocks does not: with ones left in them the product of two processes is not that of one. -/
theorem C121_refuted {eps : ℝ} (he : 0 < eps) (res : ℕ → St) (mdt : ℕ → ℝ) : ∃ s, topological FV.Geo.cross = .ok s ∧
    ¬ ∃ y Y, mfOne ((air1 (rest 1)).disc FV.Geo.cross s 0) eps bump res mdt denser = some y ∧
      mfRanks (air1 (rest 1)) FV.Geo.cross s (fun i => i / 2) 2 eps (split FV.Geo.cross s (fun i => i / 2) bump) (split FV.Geo.cross s (fun i => i / 2) res)
        (split FV.Geo.cross s (fun i => i / 2) mdt) (fun _ _ _ => 1) (split FV.Geo.cross s (fun i => i / 2) denser) = some Y ∧ Represents FV.Geo.cross s (fun i => i / 2) Y y := by
  obtain ⟨s, hs, -⟩ := FV.Geo.cross_topological
  have hne : FV.Geo.cross.nelem = 4 := by decide +kernel
  have hex : ∀ r, ∃ S, restrict FV.Geo.cross s (fun i => i / 2) r = .ok S := fun r => by
    obtain ⟨S, hS, -⟩ := restrict_spec cross_conforming rfl (by decide +kernel) hs (fun i => i / 2) r
    exact ⟨S, hS⟩
  choose S hS using hex
  refine ⟨s, hs, ?_⟩
  rw [C121_iff (n := 2) cross_conforming rfl (by decide +kernel) hs FV.Geo.cross_nozero (cross_all hs _) (dist := fun i => i / 2)
    (fun g hg => by show g / 2 < 2; omega) (fun i j h _ => Nat.div_le_div_right h.le) (air1 (rest 1)) (fun k _ => rfl) (by norm_num [air1, air]) hS he.ne'
    (split_represents _ _ _ bump) (split_represents _ _ _ res) (split_represents _ _ _ mdt) (split_represents _ _ _ denser) _ rfl
    ⟨0, by omega, fun h0 => by have := congrFun h0 0; simp [denser] at this⟩ fun i _ => denser_adm (denser_pert he) i]
  intro hall
  have h3 := congrFun (hall 3 (by omega)) 0
  have hchk := halfCheck_true
  unfold halfCheck at hchk
  rw [hs] at hchk
  simp only [hS 0, decide_eq_true_eq] at hchk
  obtain ⟨c1, c2, c3⟩ := hchk
  have hnn : ∀ q ic, 0 ≤ (if rowCell (S q) ((S q).mesh.nelem + ic) = 3 then ygStart (S q) (fun _ _ => 1) ((S q).mesh.nelem + ic) else 0 : St) 0 := fun q ic => by
    split_ifs
    · unfold ygStart; split_ifs <;> norm_num
    · exact le_rfl
  have hge : (1 : ℝ) ≤ stray 2 S (fun _ _ _ => 1) 3 0 := by
    unfold stray
    simp only [Finset.sum_apply]
    refine le_trans ?_ (Finset.single_le_sum (f := fun q => ∑ ic ∈ range (S q).mesh.nconnface,
      (if rowCell (S q) ((S q).mesh.nelem + ic) = 3 then ygStart (S q) (fun _ _ => 1) ((S q).mesh.nelem + ic) else 0 : St) 0)
      (fun q _ => Finset.sum_nonneg fun ic _ => hnn q ic) (Finset.mem_range.2 (show 0 < 2 by norm_num)))
    refine le_trans ?_ (Finset.single_le_sum (f := fun ic =>
      (if rowCell (S 0) ((S 0).mesh.nelem + ic) = 3 then ygStart (S 0) (fun _ _ => 1) ((S 0).mesh.nelem + ic) else 0 : St) 0)
      (fun ic _ => hnn 0 ic) (Finset.mem_range.2 (show 0 < (S 0).mesh.nconnface by omega)))
    have hrow : rowCell (S 0) ((S 0).mesh.nelem + 0) = 3 := by
      unfold rowCell; rw [if_neg (by omega), Nat.add_sub_cancel_left, c3]
    simp only [hrow, if_true]
    unfold ygStart
    rw [if_neg (by rw [c1, c2]; simp)]
  rw [h3] at hge
  norm_num at hge

end Par
end FVENS
