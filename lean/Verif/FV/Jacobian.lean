import Verif.FV.Residual
import Verif.Flux.JacHllc
import Verif.BC.Props

/-!
# Assembly of the Jacobian matrix (C50)

`Spatial::assemble_jacobian`, src/spatial/aspatial.cpp:242-340, and the local blocks of the flow discretisation,
src/spatial/flow_spatial.cpp:818-875. `MatSetValuesBlocked(…, ADD_VALUES)` adds to the block with the given (global) row and column and
ignores negative indices; each call is inside `omp critical`, so it is one indivisible update.
-/

namespace FVENS
namespace FV

open Msh Finset Flux

section generic
variable {ι : Type*} [Fintype ι]

/-- The linear functional `du ↦ Σ_i g[i]*du[i]` for any number of variables. -/
noncomputable def rowN (g : ι → ℝ) : (ι → ℝ) →L[ℝ] ℝ := ∑ i, g i • (ContinuousLinearMap.proj i : (ι → ℝ) →L[ℝ] ℝ)

/-- `f` has partial derivatives `g` at `u`; for four variables this is `HasGrad`. -/
def HasGradN (f : (ι → ℝ) → ℝ) (g : ι → ℝ) (u : ι → ℝ) : Prop := HasFDerivAt f (rowN g) u

theorem rowN_apply (g du : ι → ℝ) : rowN g du = ∑ i, g i * du i := by simp [rowN]

theorem hasGradN_iff (f : St → ℝ) (g u : St) : HasGradN f g u ↔ HasGrad f g u := Iff.rfl

theorem HasGradN.const (c : ℝ) (u : ι → ℝ) : HasGradN (fun _ => c) 0 u := by
  have : rowN (0 : ι → ℝ) = 0 := by ext x; simp [rowN_apply]
  unfold HasGradN; rw [this]; exact hasFDerivAt_const c u

theorem HasGradN.congr {f : (ι → ℝ) → ℝ} {g g' u : ι → ℝ} (h : HasGradN f g u) (e : g = g') : HasGradN f g' u := e ▸ h

theorem HasGradN.smul {f : (ι → ℝ) → ℝ} {g u : ι → ℝ} (h : HasGradN f g u) (c : ℝ) : HasGradN (fun a => c * f a) (c • g) u := by
  have : rowN (c • g) = c • rowN g := by
    apply ContinuousLinearMap.ext; intro x; simp [rowN_apply, Finset.mul_sum, mul_assoc]
  unfold HasGradN; rw [this]; exact HasFDerivAt.const_mul h c

theorem HasGradN.add {f f' : (ι → ℝ) → ℝ} {g g' u : ι → ℝ} (h : HasGradN f g u) (h' : HasGradN f' g' u) :
    HasGradN (fun a => f a + f' a) (g + g') u := by
  have : rowN (g + g') = rowN g + rowN g' := by
    apply ContinuousLinearMap.ext; intro x; simp [rowN_apply, add_mul, sum_add_distrib]
  unfold HasGradN; rw [this]; exact HasFDerivAt.add h h'

theorem HasGradN.sum {κ : Type*} (s : Finset κ) {f : κ → (ι → ℝ) → ℝ} {g : κ → ι → ℝ} {u : ι → ℝ} (h : ∀ k ∈ s, HasGradN (f k) (g k) u) :
    HasGradN (fun a => ∑ k ∈ s, f k a) (∑ k ∈ s, g k) u := by
  classical
  induction s using Finset.induction_on with
  | empty => exact HasGradN.const 0 u
  | insert k s hk ih =>
    simp only [sum_insert hk]
    exact (h k (by simp)).add (ih fun k hk => h k (by simp [hk]))

/-- Blocks. -/
abbrev Blk (ι : Type*) := ι → ι → ℝ

variable (G : Geo) (gcol : ℕ → Option ℕ) (Lb L U : ℕ → Blk ι)

/-- One call of `MatSetValuesBlocked`; `gcol` is the global index of a cell or connectivity ghost cell, `none` for a negative one. -/
def ent (r c : ℕ) (B : Blk ι) : List (Upd (ℕ × ℕ) (Blk ι)) :=
  match gcol r, gcol c with
  | some a, some b => [⟨(a, b), B, true⟩]
  | _, _ => []

/-- Updates of one face: physical boundary (src/spatial/aspatial.cpp:267-278), interior (284-311), connectivity (317-336). -/
def jacUpds (k : ℕ) : List (Upd (ℕ × ℕ) (Blk ι)) :=
  let l := (G.face k).left
  let r := (G.face k).right
  if k < G.m.nbface then ent gcol l l (-Lb k)
  else if G.inner k then ent gcol r l (L k) ++ ent gcol l r (U k) ++ ent gcol l l (-L k) ++ ent gcol r r (-U k)
  else ent gcol l r (U k) ++ ent gcol l l (-L k)

/-- `assemble_jacobian` on `n` threads: three parallel loops in sequence. -/
def AssembleJac (n : ℕ) (A0 A : ℕ × ℕ → Blk ι) : Prop :=
  ∃ A1 A2, ParLoop n A0 (List.range G.m.nbface) (jacUpds G gcol Lb L U) A1 ∧
    ParLoop n A1 (List.range' G.m.nbface G.ni) (jacUpds G gcol Lb L U) A2 ∧
    ParLoop n A2 (List.range' (G.m.nbface + G.ni) G.m.nconnface) (jacUpds G gcol Lb L U) A

variable {G gcol Lb L U}

omit [Fintype ι] in
theorem ent_atomic {r c : ℕ} {B : Blk ι} {x : Upd (ℕ × ℕ) (Blk ι)} (h : x ∈ ent gcol r c B) : x.atomic = true := by
  unfold ent at h
  split at h
  · rw [List.mem_singleton] at h; rw [h]
  · cases h

omit [Fintype ι] in
theorem jacUpds_atomic {k : ℕ} {x : Upd (ℕ × ℕ) (Blk ι)} (h : x ∈ jacUpds G gcol Lb L U k) : x.atomic = true := by
  unfold jacUpds at h
  simp only at h
  split_ifs at h
  · exact ent_atomic h
  · simp only [List.mem_append] at h
    rcases h with ((h | h) | h) | h <;> exact ent_atomic h
  · simp only [List.mem_append] at h
    rcases h with h | h <;> exact ent_atomic h

theorem Geo.Ok.nface_eq (h : G.Ok) : G.nface = G.m.nbface + G.ni + G.m.nconnface := by
  obtain ⟨hlen, _, _⟩ := C27_ranges h.conf.lin h.conf.bfOk h.topo
  exact hlen

omit [Fintype ι] in
/-- C50: whatever the number of threads, the distribution of faces and the interleaving, each block is its initial value plus the
contributions of all faces. -/
theorem C50_schedule (h : G.Ok) {n : ℕ} {A0 A : ℕ × ℕ → Blk ι} (hA : AssembleJac G gcol Lb L U n A0 A) (x : ℕ × ℕ) :
    A x = A0 x + ∑ k ∈ range G.nface, amtAt x (jacUpds G gcol Lb L U k) := by
  obtain ⟨A1, A2, h1, h2, h3⟩ := hA
  have hr : ∀ ks : List ℕ, ∀ k ∈ ks, ∀ u ∈ jacUpds G gcol Lb L U k, u.atomic = false → ∀ k' ∈ ks, k' ≠ k →
      ∀ u' ∈ jacUpds G gcol Lb L U k', u'.loc ≠ u.loc := fun ks k _ u hu hua => by
    rw [jacUpds_atomic hu] at hua; cases hua
  rw [parLoop_det h3 (hr _) x, parLoop_det h2 (hr _) x, parLoop_det h1 (hr _) x, h.nface_eq]
  have e1 : List.range (G.m.nbface + G.ni + G.m.nconnface) = List.range G.m.nbface ++ List.range' G.m.nbface G.ni ++
      List.range' (G.m.nbface + G.ni) G.m.nconnface := by
    rw [List.range_eq_range', List.range_eq_range', ← List.range'_append_1 (s := 0) (m := G.m.nbface + G.ni), ← List.range'_append_1 (s := 0) (m := G.m.nbface)]
    simp
  have e2 : ∑ k ∈ range (G.m.nbface + G.ni + G.m.nconnface), amtAt x (jacUpds G gcol Lb L U k) =
      ((List.range (G.m.nbface + G.ni + G.m.nconnface)).map fun k => amtAt x (jacUpds G gcol Lb L U k)).sum := by
    rw [← List.sum_toFinset _ List.nodup_range, List.toFinset_range]
  rw [e2, e1]
  simp only [List.map_append, List.sum_append]
  abel

omit [Fintype ι] in
/-- Some schedule exists for any positive number of threads. -/
theorem assembleJac_exists {n : ℕ} (hn : 0 < n) (A0 : ℕ × ℕ → Blk ι) : ∃ A, AssembleJac G gcol Lb L U n A0 A := by
  obtain ⟨A1, h1, _⟩ := parLoop_exists hn A0 (List.range G.m.nbface) (jacUpds G gcol Lb L U)
  obtain ⟨A2, h2, _⟩ := parLoop_exists hn A1 (List.range' G.m.nbface G.ni) (jacUpds G gcol Lb L U)
  obtain ⟨A, h3, _⟩ := parLoop_exists hn A2 (List.range' (G.m.nbface + G.ni) G.m.nconnface) (jacUpds G gcol Lb L U)
  exact ⟨A, A1, A2, h1, h2, h3⟩

omit [Fintype ι] in
theorem amtAt_ent (r c gi gc : ℕ) (B : Blk ι) :
    amtAt (gi, gc) (ent gcol r c B) = if gcol r = some gi ∧ gcol c = some gc then B else 0 := by
  unfold ent amtAt
  rcases hr : gcol r with _ | a <;> rcases hc : gcol c with _ | b <;> simp

omit [Fintype ι] in
theorem amtAt_append (x : ℕ × ℕ) (a b : List (Upd (ℕ × ℕ) (Blk ι))) : amtAt x (a ++ b) = amtAt x a + amtAt x b := by simp [amtAt]

/-- Face fluxes as functions of the cell states: `Fb k` at physical boundary faces, `F k` elsewhere. -/
def fluxAt (G : Geo) (Fb : ℕ → (ι → ℝ) → ι → ℝ) (F : ℕ → (ι → ℝ) → (ι → ℝ) → ι → ℝ) (u : ℕ → ι → ℝ) (k : ℕ) : ι → ℝ :=
  if k < G.m.nbface then Fb k (u (G.face k).left) else F k (u (G.face k).left) (u (G.face k).right)

/-- Specification of the face blocks: derivatives of the face fluxes with respect to the two states, with the sign convention of the
code (minus the derivative with respect to the left state). -/
structure IsBlocks (G : Geo) (Fb : ℕ → (ι → ℝ) → ι → ℝ) (F : ℕ → (ι → ℝ) → (ι → ℝ) → ι → ℝ) (u : ℕ → ι → ℝ) (Lb L U : ℕ → Blk ι) : Prop where
  bnd : ∀ k, k < G.m.nbface → ∀ v, HasGradN (fun a => Fb k a v) (-(Lb k v)) (u (G.face k).left)
  left : ∀ k, k < G.nface → G.m.nbface ≤ k → ∀ v, HasGradN (fun a => F k a (u (G.face k).right) v) (-(L k v)) (u (G.face k).left)
  right : ∀ k, k < G.nface → G.m.nbface ≤ k → ∀ v, HasGradN (fun a => F k (u (G.face k).left) a v) (U k v) (u (G.face k).right)

/-- Numbering of block rows: cells have distinct numbers, and the two sides of a face are different cells. -/
structure IsNumbering (G : Geo) (gcol : ℕ → Option ℕ) : Prop where
  cell : ∀ i, i < G.m.nelem → (gcol i).isSome = true
  inj : ∀ i j, i < G.m.nelem → j < G.m.nelem → gcol i = gcol j → i = j
  sides : ∀ k, k < G.nface → G.m.nbface ≤ k → gcol (G.face k).left ≠ gcol (G.face k).right

/-- C50: block (row of cell `i`, column `gc`) of the assembled matrix is the derivative of the spatial residual of cell `i` (the negative
of what `compute_residual` accumulates) with respect to the state of the cell with global number `gc`, including ghost copies of it. -/
theorem C50_derivative (h : G.Ok) (hN : IsNumbering G gcol) {Fb : ℕ → (ι → ℝ) → ι → ℝ} {F : ℕ → (ι → ℝ) → (ι → ℝ) → ι → ℝ} {u : ℕ → ι → ℝ}
    (hB : IsBlocks G Fb F u Lb L U) {n : ℕ} {A : ℕ × ℕ → Blk ι} (hA : AssembleJac G gcol Lb L U n (fun _ => 0) A) (r : ℕ → ι → ℝ)
    {i gi gc : ℕ} (hi : i < G.m.nelem) (hgi : gcol i = some gi) {u0 : ι → ℝ} (hu0 : ∀ j, j < G.rows → gcol j = some gc → u j = u0) (v : ι) :
    HasGradN (fun a => -(assemble G.m.nelem G.s.faces (fluxAt G Fb F fun j => if gcol j = some gc then a else u j) r i v)) (A (gi, gc) v) u0 := by
  rw [C50_schedule h hA, zero_add]
  simp only [assemble_eq, Pi.add_apply, Finset.sum_apply, neg_add, ← Finset.sum_neg_distrib]
  have hsum := HasGradN.sum (range G.nface) (u := u0)
    (f := fun k a => -(contrib G.m.nelem (faceAt G.s.faces k) (fluxAt G Fb F (fun j => if gcol j = some gc then a else u j) k) i v))
    (g := fun k => amtAt (gi, gc) (jacUpds G gcol Lb L U k) v) ?_
  · have h2 := (HasGradN.const (-(r i v)) u0).add hsum
    exact h2.congr (zero_add _)
  intro k hk
  have hk := mem_range.1 hk
  obtain ⟨k1, k2, k3, k4, k5⟩ := h.kind hk
  have hrow : ∀ j, j < G.m.nelem → (gcol j = some gi ↔ j = i) := fun j hj =>
    ⟨fun e => hN.inj j i hj hi (by rw [e, hgi]), fun e => by rw [e, hgi]⟩
  change HasGradN (fun a => -(contrib G.m.nelem (G.face k) (fluxAt G Fb F (fun j => if gcol j = some gc then a else u j) k) i v)) _ _
  have hlr : (G.face k).left < G.rows := by unfold Geo.rows; omega
  unfold contrib
  -- derivative of the flux
  have hD : HasGradN (fun a => fluxAt G Fb F (fun j => if gcol j = some gc then a else u j) k v)
      (fun w => (if gcol (G.face k).left = some gc then -(if k < G.m.nbface then Lb k v w else L k v w) else 0) +
        if G.m.nbface ≤ k ∧ gcol (G.face k).right = some gc then U k v w else 0) u0 := by
    unfold fluxAt
    by_cases hb : k < G.m.nbface
    · simp only [hb, if_true, show ¬ G.m.nbface ≤ k by omega, false_and, if_false, add_zero]
      by_cases hl : gcol (G.face k).left = some gc
      · simp only [hl, if_true]
        have := hB.bnd k hb v
        rw [hu0 _ hlr hl] at this
        exact this
      · simp only [hl, if_false]
        exact HasGradN.const _ _
    · have hb' : G.m.nbface ≤ k := by omega
      have hrr : (G.face k).right < G.rows := k5 hb'
      simp only [hb, if_false, hb', true_and]
      by_cases hl : gcol (G.face k).left = some gc
      · have hr : gcol (G.face k).right ≠ some gc := fun e => hN.sides k hk hb' (by rw [hl, e])
        simp only [hl, hr, if_true, if_false, add_zero]
        have := hB.left k hk hb' v
        rw [hu0 _ hlr hl] at this
        exact this
      · by_cases hr : gcol (G.face k).right = some gc
        · simp only [hl, hr, if_true, if_false, zero_add]
          have := hB.right k hk hb' v
          rw [hu0 _ hrr hr] at this
          exact this
        · simp only [hl, hr, if_false, add_zero]
          exact HasGradN.const _ _
  have hcf : (fun a => -(((if (G.face k).right = i ∧ i < G.m.nelem then fluxAt G Fb F (fun j => if gcol j = some gc then a else u j) k else 0) -
      (if (G.face k).left = i then fluxAt G Fb F (fun j => if gcol j = some gc then a else u j) k else 0)) v)) =
      fun a => ((if (G.face k).left = i then 1 else 0) - (if (G.face k).right = i then 1 else 0)) *
        fluxAt G Fb F (fun j => if gcol j = some gc then a else u j) k v := by
    funext a
    by_cases e1 : (G.face k).left = i <;> by_cases e2 : (G.face k).right = i <;> simp [e1, e2, hi]
  rw [hcf]
  refine (hD.smul ((if (G.face k).left = i then 1 else 0) - (if (G.face k).right = i then 1 else 0))).congr ?_
  funext w
  have hL := hrow _ k1
  have key : ∀ (P Q R S : Prop) [Decidable P] [Decidable Q] [Decidable R] [Decidable S], (¬ (P ∧ Q)) → ∀ x y : ℝ,
      ((if P then (1 : ℝ) else 0) - if Q then 1 else 0) * ((if R then -x else 0) + if S then y else 0) =
      (if Q ∧ R then x else 0) + (if P ∧ S then y else 0) + (if P ∧ R then -x else 0) + if Q ∧ S then -y else 0 := by
    intro P Q R S _ _ _ _ hPQ x y
    by_cases hP : P <;> by_cases hQ : Q <;> by_cases hR : R <;> by_cases hS : S <;> simp [hP, hQ, hR, hS] <;> first | exact (hPQ ⟨hP, hQ⟩).elim | ring
  have app : ∀ (P : Prop) [Decidable P] (B : Blk ι), (if P then B else 0) v w = if P then B v w else 0 := by
    intro P _ B; split_ifs <;> rfl
  unfold jacUpds
  simp only [Pi.smul_apply, smul_eq_mul]
  by_cases hb : k < G.m.nbface
  · have e2 : ¬ (G.face k).right = i := by have := k3 hb; omega
    simp only [hb, if_true, amtAt_ent, hL, show ¬ G.m.nbface ≤ k by omega, false_and]
    rw [key ((G.face k).left = i) ((G.face k).right = i) (gcol (G.face k).left = some gc) False (fun e => e2 e.2) (Lb k v w) (U k v w), app]
    simp [e2]
  · have hb' : G.m.nbface ≤ k := by omega
    by_cases hin : G.inner k
    · have hR := hrow _ (k4.1 hin)
      simp only [hb, hin, if_true, if_false, amtAt_append, amtAt_ent, hL, hR, hb', true_and]
      rw [key ((G.face k).left = i) ((G.face k).right = i) _ _ (fun e => k2 (by rw [e.1, e.2])) (L k v w) (U k v w)]
      simp only [Pi.add_apply, app, Pi.neg_apply]
    · have e2 : ¬ (G.face k).right = i := fun e => hin (k4.2 (by omega))
      simp only [hb, hin, if_false, amtAt_append, amtAt_ent, hL, hb', true_and]
      rw [key ((G.face k).left = i) ((G.face k).right = i) _ _ (fun e => e2 e.2) (L k v w) (U k v w)]
      simp only [Pi.add_apply, app, Pi.neg_apply, e2, false_and, if_false, zero_add, add_zero]

omit [Fintype ι] in
/-- C50: contributions of interior faces cancel in every block column; the column sum over the cells is that of the physical boundary and
interface faces. -/
theorem C50_column_sum (h : G.Ok) (hN : IsNumbering G gcol) {n : ℕ} {A : ℕ × ℕ → Blk ι} (hA : AssembleJac G gcol Lb L U n (fun _ => 0) A) (gc : ℕ) :
    ∑ i ∈ range G.m.nelem, A ((gcol i).getD 0, gc) =
      ∑ k ∈ (range G.nface).filter (fun k => ¬ G.inner k),
        if k < G.m.nbface then (if gcol (G.face k).left = some gc then -Lb k else 0)
        else (if gcol (G.face k).right = some gc then U k else 0) + if gcol (G.face k).left = some gc then -L k else 0 := by
  have hget : ∀ i, i < G.m.nelem → gcol i = some ((gcol i).getD 0) := fun i hi => by
    obtain ⟨a, ha⟩ := Option.isSome_iff_exists.1 (hN.cell i hi)
    rw [ha]; rfl
  have hone : ∀ j, j < G.m.nelem → ∀ (P : Prop) [Decidable P] (B : Blk ι),
      ∑ i ∈ range G.m.nelem, (if gcol j = some ((gcol i).getD 0) ∧ P then B else 0) = if P then B else 0 := by
    intro j hj P _ B
    rw [Finset.sum_eq_single j]
    · simp only [← hget j hj, true_and]
    · intro i hi hne
      rw [if_neg]
      rintro ⟨e, _⟩
      rw [← hget i (mem_range.1 hi)] at e
      exact hne (hN.inj i j (mem_range.1 hi) hj e.symm)
    · intro hj'; exact absurd (mem_range.2 hj) hj'
  simp only [C50_schedule h hA, zero_add]
  rw [sum_comm, sum_filter]
  refine sum_congr rfl fun k hk => ?_
  obtain ⟨k1, k2, k3, k4, k5⟩ := h.kind (mem_range.1 hk)
  unfold jacUpds
  by_cases hb : k < G.m.nbface
  · have hin : ¬ G.inner k := fun hin => by have := hin.1; omega
    simp only [hb, hin, if_true, not_false_eq_true, amtAt_ent, hone _ k1]
  · by_cases hin : G.inner k
    · simp only [hb, hin, if_true, if_false, not_true_eq_false, amtAt_append, amtAt_ent, sum_add_distrib, hone _ k1, hone _ (k4.1 hin)]
      by_cases hl : gcol (G.face k).left = some gc <;> by_cases hr : gcol (G.face k).right = some gc <;> simp [hl, hr]
    · simp only [hb, hin, if_true, if_false, not_false_eq_true, amtAt_append, amtAt_ent, sum_add_distrib, hone _ k1]

/-- Global numbers used by the code: the cell's own global number, for interface faces the global number of the cell across
(src/spatial/aspatial.cpp:268, 286-287, 319-320); without distribution, the local number and none. -/
def numbering (m : Mesh) (dist : Bool) (glob : ℕ → ℕ) (j : ℕ) : Option ℕ :=
  if j < m.nelem then some (if dist then glob j else j) else if dist then some (m.connface (j - m.nelem) 3) else none

/-- Serial numbering is admissible on every mesh; distributed numbering if global numbers are distinct and no cell across an interface is one's own. -/
theorem numbering_isNumbering (h : G.Ok) (dist : Bool) (glob : ℕ → ℕ)
    (hd : dist = true → (∀ i j, i < G.m.nelem → j < G.m.nelem → glob i = glob j → i = j) ∧
      ∀ i c, i < G.m.nelem → c < G.m.nconnface → glob i ≠ G.m.connface c 3) : IsNumbering G (numbering G.m dist glob) := by
  refine ⟨fun i hi => by simp [numbering, hi], fun i j hi hj e => ?_, fun k hk hk' e => ?_⟩
  · simp only [numbering, hi, hj, if_true] at e
    cases dist
    · simpa using e
    · exact (hd rfl).1 i j hi hj (by simpa using e)
  · obtain ⟨h1, h2, _, _, h5⟩ := h.kind hk
    have h5 := h5 hk'
    simp only [numbering, h1, if_true] at e
    by_cases hr : (G.face k).right < G.m.nelem
    · simp only [hr, if_true] at e
      cases dist
      · exact h2 (by simpa using e)
      · exact h2 ((hd rfl).1 _ _ h1 hr (by simpa using e))
    · simp only [hr, if_false] at e
      cases dist
      · simp at e
      · exact (hd rfl).2 _ ((G.face k).right - G.m.nelem) h1 (by omega) (by simpa using e)

end generic

/-! ### Blocks of the flow discretisation -/

namespace Disc

/-- `compute_local_jacobian_interior`, src/spatial/flow_spatial.cpp:818-839, with the inviscid flux Jacobian `J` (`jiflux->get_jacobian`). -/
noncomputable def blkInterior (D : Disc) (J : St → St → V2 → FJ) (k : ℕ) (ul ur : St) : FJ :=
  let j := J ul ur (D.G.nrm k)
  let v := viscousJac D.gas D.constVisc (D.G.nrm k) (D.G.xl k) (D.G.xr k) ul ur
  ⟨fun a b => (j.dfdl a b + if D.viscous then v.1 a b else 0) * D.G.len k, fun a b => (j.dfdr a b + if D.viscous then v.2 a b else 0) * D.G.len k⟩

/-- `compute_local_jacobian_boundary`, src/spatial/flow_spatial.cpp:841-875, with the ghost state and its Jacobian `g`
(`computeGhostStateAndJacobian`). -/
noncomputable def blkBoundary (D : Disc) (J : St → St → V2 → FJ) (g : St → V2 → BC.GJ) (k : ℕ) (ul : St) : Fin 4 → St :=
  let gj := g ul (D.G.nrm k)
  let j := J ul gj.gs (D.G.nrm k)
  let v := viscousJac D.gas D.constVisc (D.G.nrm k) (D.G.xl k) (D.G.xr k) ul gj.gs
  let left : Fin 4 → St := fun a b => j.dfdl a b + if D.viscous then v.1 a b else 0
  let right : Fin 4 → St := fun a b => j.dfdr a b + if D.viscous then v.2 a b else 0
  fun a b => D.G.len k * (left a b - ∑ c, right a c * gj.dgs c b)

/-- Integrated first-order face flux as a function of the two states. -/
noncomputable def flux2 (D : Disc) (k : ℕ) (a b : St) : St := fun v =>
  D.scheme.flux D.gas a b (D.G.nrm k) v * D.G.len k +
    if D.viscous then viscous1 D.gas D.constVisc (D.G.nrm k) (D.G.xl k) (D.G.xr k) a b v * D.G.len k else 0

/-- The first-order residual is the accumulation of these fluxes, with ghost states at physical boundary faces. -/
theorem residual1_eq (D : Disc) (hok : D.BcOk) (u r : ℕ → St) : ∃ o, D.residual1 u r = some o ∧
    o.res = assemble D.G.m.nelem D.G.s.faces (fluxAt D.G (fun k a => D.flux2 k a (D.bstate k a)) D.flux2 u) r := by
  refine ⟨_, by unfold residual1; rw [if_pos hok], ?_⟩
  simp only [fluxes]
  congr 1
  funext k v
  unfold faceFlux fluxAt flux2 viscous1 Geo.ur
  by_cases hb : k < D.G.m.nbface <;> simp [hb]

/-- The viscosity derivative is right: constant viscosity, or the derivative in question. -/
def ViscOk (D : Disc) (u : St) : Prop :=
  D.viscous = true → u 0 ≠ 0 ∧ (D.constVisc = false → HasGrad D.gas.viscosityC (D.gas.dViscosityC u) u)

/-- C50: if the flux Jacobian is exact and the viscosity derivatives are right, the interior blocks are the derivatives of the integrated flux. -/
theorem C50_interior_blocks (D : Disc) {J : St → St → V2 → FJ} (k : ℕ) {ul ur : St}
    (hJ : IsFluxJac (fun a b => D.scheme.flux D.gas a b (D.G.nrm k)) (J ul ur (D.G.nrm k)) ul ur) (hl : D.ViscOk ul) (hr : D.ViscOk ur) :
    IsFluxJac (D.flux2 k) (D.blkInterior J k ul ur) ul ur := by
  intro i
  unfold flux2 blkInterior
  by_cases hv : D.viscous
  · have hvj := viscousJac_correct D.gas D.constVisc (D.G.nrm k) (D.G.xl k) (D.G.xr k) (hl hv).1 (hr hv).1 (hl hv).2 (hr hv).2 i
    simp only [hv, if_true]
    refine ⟨((((hJ i).1.cmul (D.G.len k)).add (hvj.1.cmul (D.G.len k))).congr ?_).congr_of_eventuallyEq (Filter.Eventually.of_forall fun w => ?_),
      ((((hJ i).2.cmul (D.G.len k)).add (hvj.2.cmul (D.G.len k))).congr ?_).congr_of_eventuallyEq (Filter.Eventually.of_forall fun w => ?_)⟩
    · funext b; ring
    · simp only; ring
    · funext b; ring
    · simp only; ring
  · simp only [hv, Bool.false_eq_true, if_false, add_zero]
    refine ⟨(((hJ i).1.cmul (D.G.len k)).congr ?_).congr_of_eventuallyEq (Filter.Eventually.of_forall fun w => ?_),
      (((hJ i).2.cmul (D.G.len k)).congr ?_).congr_of_eventuallyEq (Filter.Eventually.of_forall fun w => ?_)⟩
    · funext b; ring
    · simp only; ring
    · funext b; ring
    · simp only; ring

/-- Joint derivative of a two-state function, needed for the chain rule at boundaries. -/
def IsJoint (F : St → St → St) (J : FJ) (ul ur : St) : Prop := ∀ i, HasFDerivAt (fun p : St × St => F p.1 p.2 i)
  ((row fun k => -J.dfdl i k).comp (ContinuousLinearMap.fst ℝ St St) + (row (J.dfdr i)).comp (ContinuousLinearMap.snd ℝ St St)) (ul, ur)

theorem IsJoint.chain {F : St → St → St} {J : FJ} {ul : St} {g : St → St} {gj : BC.GJ} (hg : BC.IsGhostJac g gj ul) (h : IsJoint F J ul (g ul)) (i : Fin 4) :
    HasGrad (fun a => F a (g a) i) (fun b => -(J.dfdl i b - ∑ c, J.dfdr i c * gj.dgs c b)) ul := by
  have hg' : HasFDerivAt g (ContinuousLinearMap.pi fun c => row (gj.dgs c)) ul := hasFDerivAt_pi.2 fun c => hg.2 c
  have h1 : HasFDerivAt (fun a => (a, g a)) ((ContinuousLinearMap.id ℝ St).prod (ContinuousLinearMap.pi fun c => row (gj.dgs c))) ul :=
    (hasFDerivAt_id ul).prodMk hg'
  have h2 := HasFDerivAt.comp ul (h i) h1
  unfold HasGrad
  refine h2.congr_fderiv ?_
  apply ContinuousLinearMap.ext
  intro x
  simp only [ContinuousLinearMap.comp_apply, add_apply, ContinuousLinearMap.prod_apply, ContinuousLinearMap.coe_fst',
    ContinuousLinearMap.coe_snd', ContinuousLinearMap.coe_id', id, ContinuousLinearMap.coe_pi', row_apply, Fin.sum_univ_four]
  ring

/-- C50: at a boundary with constant ghost state (far field) the block is the derivative if the flux Jacobian is exact with respect to the
inner state. -/
theorem C50_boundary_constant (D : Disc) {J : St → St → V2 → FJ} {g : St → V2 → BC.GJ} (k : ℕ) {ul c : St}
    (hg : g ul (D.G.nrm k) = ⟨c, fun _ => 0⟩) (hc : ∀ a, D.bstate k a = c)
    (hJ : IsFluxJac (fun a b => D.scheme.flux D.gas a b (D.G.nrm k)) (J ul c (D.G.nrm k)) ul c) (hl : D.ViscOk ul) (hr : D.ViscOk c) (v : Fin 4) :
    HasGrad (fun a => D.flux2 k a (D.bstate k a) v) (-(D.blkBoundary J g k ul v)) ul := by
  have h := (D.C50_interior_blocks k hJ hl hr v).1
  simp only [hc]
  refine h.congr ?_
  funext b
  simp only [blkBoundary, blkInterior, hg, Pi.neg_apply, Pi.zero_apply, mul_zero, sum_const_zero, sub_zero]
  ring

/-- C50: at any boundary the block is the derivative of the flux with the ghost state as a function of the inner state, if the flux blocks are
its joint derivative and the ghost-state Jacobian is exact. -/
theorem C50_boundary_chain (D : Disc) {J : St → St → V2 → FJ} {g : St → V2 → BC.GJ} (k : ℕ) {ul : St}
    (hg : BC.IsGhostJac (fun a => D.bstate k a) (g ul (D.G.nrm k)) ul)
    (hJ : IsJoint (D.flux2 k) (D.blkInterior J k ul (D.bstate k ul)) ul (D.bstate k ul)) (v : Fin 4) :
    HasGrad (fun a => D.flux2 k a (D.bstate k a) v) (-(D.blkBoundary J g k ul v)) ul := by
  refine (hJ.chain hg v).congr ?_
  funext b
  simp only [blkBoundary, blkInterior, hg.1, Pi.neg_apply, Fin.sum_univ_four]
  ring

/-- C50 for the flow discretisation: the assembled matrix is the derivative of the first-order residual with respect to the state of every cell,
provided the face blocks are derivatives (see the preceding theorems). -/
theorem C50_flow (D : Disc) (h : D.G.Ok) (hok : D.BcOk) {gcol : ℕ → Option ℕ} (hN : IsNumbering D.G gcol) {J : St → St → V2 → FJ} {g : ℕ → St → V2 → BC.GJ}
    {u : ℕ → St} (hb : ∀ k, k < D.G.m.nbface → ∀ v,
      HasGrad (fun a => D.flux2 k a (D.bstate k a) v) (-(D.blkBoundary J (g k) k (u (D.G.face k).left) v)) (u (D.G.face k).left))
    (hi : ∀ k, k < D.G.nface → D.G.m.nbface ≤ k → IsFluxJac (D.flux2 k)
      (D.blkInterior J k (u (D.G.face k).left) (u (D.G.face k).right)) (u (D.G.face k).left) (u (D.G.face k).right))
    {n : ℕ} {A : ℕ × ℕ → Blk (Fin 4)}
    (hA : AssembleJac D.G gcol (fun k => D.blkBoundary J (g k) k (u (D.G.face k).left))
      (fun k => (D.blkInterior J k (u (D.G.face k).left) (u (D.G.face k).right)).dfdl)
      (fun k => (D.blkInterior J k (u (D.G.face k).left) (u (D.G.face k).right)).dfdr) n (fun _ => 0) A) (r : ℕ → St)
    {i gi gc : ℕ} (hi' : i < D.G.m.nelem) (hgi : gcol i = some gi) {u0 : St} (hu0 : ∀ j, j < D.G.rows → gcol j = some gc → u j = u0) :
    ∃ res : St → ℕ → St, (∀ a, ∃ o, D.residual1 (fun j => if gcol j = some gc then a else u j) r = some o ∧ o.res = res a) ∧
      ∀ v, HasGrad (fun a => -(res a i v)) (A (gi, gc) v) u0 := by
  refine ⟨fun a => assemble D.G.m.nelem D.G.s.faces (fluxAt D.G (fun k a => D.flux2 k a (D.bstate k a)) D.flux2 fun j => if gcol j = some gc then a else u j) r,
    fun a => D.residual1_eq hok _ r, fun v => ?_⟩
  exact (hasGradN_iff _ _ _).1 (C50_derivative h hN ⟨hb, fun k hk hk' v => (hi k hk hk' v).1, fun k hk hk' v => (hi k hk hk' v).2⟩ hA r hi' hgi hu0 v)

/-! ### Joint derivatives of the schemes with frozen coefficients -/

theorem isJoint_of_separable {F : St → St → St} {J : FJ} {ul ur : St} {f g : St → St} (hF : ∀ a b i, F a b i = f a i + g b i)
    (h : IsFluxJac F J ul ur) : IsJoint F J ul ur := by
  intro i
  have h1 : HasFDerivAt (fun a => f a i) (row fun k => -J.dfdl i k) ul := by
    have := (h i).1
    simp only [hF] at this
    have h2 := this.sub (HasGrad.const (g ur i))
    refine (h2.congr ?_).congr_of_eventuallyEq (Filter.Eventually.of_forall fun w => ?_)
    · funext k; simp
    · simp
  have h2 : HasFDerivAt (fun b => g b i) (row (J.dfdr i)) ur := by
    have := (h i).2
    simp only [hF] at this
    have h2 := this.sub (HasGrad.const (f ul i))
    refine (h2.congr ?_).congr_of_eventuallyEq (Filter.Eventually.of_forall fun w => ?_)
    · funext k; simp
    · simp
  simp only [hF]
  exact (HasFDerivAt.comp (ul, ur) (f := Prod.fst) h1 hasFDerivAt_fst).add (HasFDerivAt.comp (ul, ur) (f := Prod.snd) h2 hasFDerivAt_snd)

/-- Lax–Friedrichs and HLL blocks are joint derivatives of the fluxes with frozen coefficients. -/
theorem C50_joint_llf {G : Gas} {ul ur : St} (hl : ul 0 ≠ 0) (hr : ur 0 ≠ 0) (n : V2) :
    IsJoint (llfWith G (llfEig (Gas.varsVn ul n) (cSide G ul) (Gas.varsVn ur n) (cSide G ur)) n) (llfJac G ul ur n) ul ur := by
  refine isJoint_of_separable (f := fun a i => 1 / 2 * (G.eulerFlux a n i + llfEig (Gas.varsVn ul n) (cSide G ul) (Gas.varsVn ur n) (cSide G ur) * a i))
    (g := fun b i => 1 / 2 * (G.eulerFlux b n i - llfEig (Gas.varsVn ul n) (cSide G ul) (Gas.varsVn ur n) (cSide G ur) * b i)) (fun a b i => ?_)
    (C18_llf_frozen hl hr n).2
  unfold llfWith; ring

theorem C50_joint_hll {G : Gas} {ul ur : St} (hl : ul 0 ≠ 0) (hr : ur 0 ≠ 0) (n : V2) :
    IsJoint (hllWith G (hllT1 (slOf G ul ur n) (srOf G ul ur n)) (hllT3 (slOf G ul ur n) (srOf G ul ur n)) n) (hllJac G ul ur n) ul ur := by
  refine isJoint_of_separable
    (f := fun a i => (1 - hllT1 (slOf G ul ur n) (srOf G ul ur n)) * G.eulerFlux a n i + hllT3 (slOf G ul ur n) (srOf G ul ur n) * a i)
    (g := fun b i => hllT1 (slOf G ul ur n) (srOf G ul ur n) * G.eulerFlux b n i - hllT3 (slOf G ul ur n) (srOf G ul ur n) * b i) (fun a b i => ?_)
    (C18_hll_frozen hl hr n).2
  unfold hllWith; ring

/-- Slip wall with the frozen Lax–Friedrichs flux: chain rule through the ghost state. -/
theorem C50_slip_wall_llf {G : Gas} {ul : St} (hl : ul 0 ≠ 0) (n : V2) (i : Fin 4) :
    let g := BC.slip ul n
    let J := llfJac G ul g n
    HasGrad (fun a => llfWith G (llfEig (Gas.varsVn ul n) (cSide G ul) (Gas.varsVn g n) (cSide G g)) n a (BC.slip a n) i)
      (fun b => -(J.dfdl i b - ∑ c, J.dfdr i c * (BC.slipJ ul n).dgs c b)) ul := by
  intro g J
  have hg0 : g 0 ≠ 0 := by simpa [g, BC.slip] using hl
  exact (C50_joint_llf hl hg0 n).chain (g := fun a => BC.slip a n) (BC.C10_slip ul n hl) i

/-! ### End to end: AUSM with far-field boundaries -/

/-- C50 without hypotheses on blocks: with the AUSM scheme and far-field boundaries, for admissible states whose interface Mach numbers do not
vanish, the assembled matrix is the derivative of the first-order residual (inviscid, or viscous with constant viscosity). -/
theorem C50_ausm_farfield (D : Disc) (h : D.G.Ok) (hs : D.scheme = .ausm) (hv : D.viscous = true → D.constVisc = true) {c : St}
    (hbc : ∀ k, k < D.G.m.nbface → D.bc (D.tag k) = some (.farfield c)) (hc : Adm D.gas c) {u : ℕ → St} (hu : ∀ i, i < D.G.rows → Adm D.gas (u i))
    (hM : ∀ k, k < D.G.nface → let ul := u (D.G.face k).left; let ur := if k < D.G.m.nbface then c else u (D.G.face k).right
      ausmML (Gas.varsVn ul (D.G.nrm k) / cSide D.gas ul) + ausmMR (Gas.varsVn ur (D.G.nrm k) / cSide D.gas ur) ≠ 0)
    {gcol : ℕ → Option ℕ} (hN : IsNumbering D.G gcol) {n : ℕ} {A : ℕ × ℕ → Blk (Fin 4)}
    (hA : AssembleJac D.G gcol (fun k => D.blkBoundary (ausmJac D.gas) (BC.farfieldJ c) k (u (D.G.face k).left))
      (fun k => (D.blkInterior (ausmJac D.gas) k (u (D.G.face k).left) (u (D.G.face k).right)).dfdl)
      (fun k => (D.blkInterior (ausmJac D.gas) k (u (D.G.face k).left) (u (D.G.face k).right)).dfdr) n (fun _ => 0) A) (r : ℕ → St)
    {i gi gc : ℕ} (hi : i < D.G.m.nelem) (hgi : gcol i = some gi) {u0 : St} (hu0 : ∀ j, j < D.G.rows → gcol j = some gc → u j = u0) :
    ∃ res : St → ℕ → St, (∀ a, ∃ o, D.residual1 (fun j => if gcol j = some gc then a else u j) r = some o ∧ o.res = res a) ∧
      ∀ v, HasGrad (fun a => -(res a i v)) (A (gi, gc) v) u0 := by
  have hvo : ∀ {a : St}, Adm D.gas a → D.ViscOk a := fun ha hv' => ⟨ha.rho', fun hc' => by simp [hv hv'] at hc'⟩
  have hL : ∀ k, k < D.G.nface → Adm D.gas (u (D.G.face k).left) := fun k hk => hu _ (by have := (h.kind hk).1; unfold Geo.rows; omega)
  have hnb : D.G.m.nbface ≤ D.G.nface := by rw [h.nface_eq]; omega
  refine C50_flow D h (fun k hk => by rw [hbc k hk]; rfl) hN (g := fun _ => BC.farfieldJ c) ?_ ?_ hA r hi hgi hu0
  · intro k hk v
    refine C50_boundary_constant D (c := c) k rfl (fun a => by simp [bstate, hbc k hk, BC.Obj.ghost, BC.farfield]) ?_ (hvo (hL k (by omega))) (hvo hc) v
    rw [hs]
    exact C18_ausm_exact (hL k (by omega)) hc _ (by have := hM k (by omega); simpa [hk] using this)
  · intro k hk hk'
    have hR : Adm D.gas (u (D.G.face k).right) := hu _ ((h.kind hk).2.2.2.2 hk')
    refine C50_interior_blocks D k ?_ (hvo (hL k hk)) (hvo hR)
    rw [hs]
    exact C18_ausm_exact (hL k hk) hR _ (by have := hM k hk; simpa [Nat.not_lt.2 hk'] using this)

/-- Air moving obliquely over the example mesh, AUSM, constant viscosity. -/
noncomputable def exJac : Disc :=
  { exDisc with scheme := .ausm, constVisc := true, bc := fun _ => some (.farfield uEx) }

/-- Hypotheses of `C50_ausm_farfield` are met, for three threads and cell 1 perturbed. -/
example : ∃ A : ℕ × ℕ → Blk (Fin 4), ∃ res : St → ℕ → St,
    (∀ a, ∃ o, exJac.residual1 (fun j => if numbering exGeo.m false id j = some 1 then a else uEx) (fun _ => 0) = some o ∧ o.res = res a) ∧
    ∀ v, HasGrad (fun a => -(res a 0 v)) (A (0, 1) v) uEx := by
  have hN : IsNumbering exJac.G (numbering exGeo.m false id) := numbering_isNumbering exGeo_ok false id (by simp)
  have hu : Adm air uEx := ⟨by norm_num [air], by norm_num [uEx], by rw [uEx_pressure]; norm_num⟩
  obtain ⟨A, hA⟩ := assembleJac_exists (G := exJac.G) (gcol := numbering exGeo.m false id)
    (Lb := fun k => exJac.blkBoundary (ausmJac exJac.gas) (BC.farfieldJ uEx) k uEx)
    (L := fun k => (exJac.blkInterior (ausmJac exJac.gas) k uEx uEx).dfdl)
    (U := fun k => (exJac.blkInterior (ausmJac exJac.gas) k uEx uEx).dfdr) (n := 3) (by norm_num) (fun _ => 0)
  refine ⟨A, C50_ausm_farfield exJac exGeo_ok rfl (fun _ => rfl) (fun _ _ => rfl) hu (u := fun _ => uEx) (fun _ _ => hu) (fun k hk => ?_) hN hA _
    (show 0 < 2 by norm_num) rfl (fun _ _ _ => rfl)⟩
  simp only [ite_self]
  rw [(ausm_split_sum _ 0 0 0 0).1]
  refine div_ne_zero ?_ hu.c_pos.ne'
  have hl := len_pos (D := exJac) exGeo_ok hk
  have hk : k < exGeo.nface := hk
  change 0 < exGeo.len k at hl
  change Gas.varsVn uEx (exGeo.nrm k) ≠ 0
  obtain ⟨hn, f0, f1, f2, f3, f4, f5⟩ := exGeo_face
  obtain ⟨c0, c1, c2, c3, c4⟩ := exGeo_coords
  have key : Gas.varsVn uEx (exGeo.nrm k) * exGeo.len k =
      1 / 2 * (exGeo.m.coords (exGeo.face k).n1 1 - exGeo.m.coords (exGeo.face k).n0 1) - 3 / 2 * (exGeo.m.coords (exGeo.face k).n1 0 - exGeo.m.coords (exGeo.face k).n0 0) := by
    unfold Geo.len at hl ⊢
    unfold Geo.nrm
    simp only [Gas.varsVn, dot, Gas.vel, uEx, fNrm]
    simp
    field_simp
    ring
  intro h0
  rw [h0, zero_mul] at key
  rw [hn] at hk
  obtain rfl | rfl | rfl | rfl | rfl | rfl : k = 0 ∨ k = 1 ∨ k = 2 ∨ k = 3 ∨ k = 4 ∨ k = 5 := by omega
  all_goals
    simp only [f0, f1, f2, f3, f4, f5, c0, c1, c2, c3, c4] at key
    norm_num at key

end Disc
end FV
end FVENS
