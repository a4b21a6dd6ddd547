import Verif.FV.ChartBc
import Verif.Par.ImplicitRun

/-!
# The linear systems of the implicit solver in another chart (C104)
-/

namespace FVENS

open Flux FV FV.Disc Par
open Finset (range mem_range sum_congr)

namespace Chart
variable (χ : Chart)

/-! ### Blocks -/

section blocks
variable {χ} {κ : ℝ} {A A' B B' : Fin 4 → St}

theorem st_mul (r : ℝ) (u : St) (i : Fin 4) : χ.st (fun j => r * u j) i = r * χ.st u i := congrFun (χ.st_smul r u) i
theorem st_plus (u v : St) (i : Fin 4) : χ.st (fun j => u j + v j) i = χ.st u i + χ.st v i := congrFun (χ.st_add u v) i
theorem st_minus (u v : St) (i : Fin 4) : χ.st (fun j => u j - v j) i = χ.st u i - χ.st v i := by
  have h := st_plus (χ := χ) u (fun j => -1 * v j) i
  rw [st_mul] at h
  rw [show (fun j => u j - v j) = fun j => u j + -1 * v j by funext j; ring, h]; ring

theorem BlkIm.zero : χ.BlkIm κ 0 0 := χ.blkIm_zero

theorem BlkIm.add (hA : χ.BlkIm κ A A') (hB : χ.BlkIm κ B B') : χ.BlkIm κ (fun i k => A i k + B i k) (fun i k => A' i k + B' i k) := fun x => by
  funext i
  have h1 := congrFun (hA x) i
  have h2 := congrFun (hB x) i
  simp only [add_mul, Finset.sum_add_distrib, st_plus] at h1 h2 ⊢
  rw [h1, h2]; ring

theorem BlkIm.smul (hA : χ.BlkIm κ A A') (r : ℝ) : χ.BlkIm κ (fun i k => r * A i k) (fun i k => r * A' i k) := fun x => by
  funext i
  have h1 := congrFun (hA x) i
  simp only [mul_assoc, ← Finset.mul_sum, st_mul] at h1 ⊢
  rw [h1]; ring

theorem BlkIm.neg (hA : χ.BlkIm κ A A') : χ.BlkIm κ (-A) (-A') := by
  have h := hA.smul (-1)
  simp only [neg_mul, one_mul] at h
  exact h

theorem BlkIm.sub (hA : χ.BlkIm κ A A') (hB : χ.BlkIm κ B B') : χ.BlkIm κ (fun i k => A i k - B i k) (fun i k => A' i k - B' i k) := by
  have h := hA.add (hB.smul (-1))
  simp only [neg_mul, one_mul, ← sub_eq_add_neg] at h
  exact h

theorem BlkIm.scale (hA : χ.BlkIm κ A A') (L l l' : ℝ) (hl : l' = L * l) : χ.BlkIm (κ * L) (fun i k => l * A i k) (fun i k => l' * A' i k) := fun x => by
  funext i
  have h1 := congrFun (hA x) i
  simp only [mul_assoc, ← Finset.mul_sum, st_mul] at h1 ⊢
  rw [h1, hl]; ring

/-- Products of blocks. -/
theorem BlkIm.mul (hA : χ.BlkIm κ A A') (hB : χ.BlkIm 1 B B') : χ.BlkIm κ (fun i k => ∑ c, A i c * B c k) (fun i k => ∑ c, A' i c * B' c k) := fun x => by
  have hm : ∀ (A B : Fin 4 → St) (x : St), (fun i => ∑ k, (∑ c, A i c * B c k) * x k) = fun i => ∑ c, A i c * ∑ k, B c k * x k := fun A B x => by
    funext i
    simp only [Finset.sum_mul, Finset.mul_sum, mul_assoc]
    exact Finset.sum_comm
  have h1 := hA (fun c => ∑ k, B c k * x k)
  have h2 := hB x
  simp only [one_mul] at h2
  have h2' : ∀ c, ∑ k, B' c k * χ.st x k = χ.st (fun j => ∑ k, B j k * x k) c := fun c => congrFun h2 c
  funext i
  have e1 := congrFun (hm A' B' (χ.st x)) i
  have e2 := congrFun h1 i
  simp only [h2'] at e1
  simp only [] at e1 e2 ⊢
  rw [e1, e2]
  congr 2
  exact (hm A B x).symm

theorem BlkIm.sum {ι : Type*} {s : Finset ι} {F F' : ι → Blk (Fin 4)} (h : ∀ k ∈ s, χ.BlkIm κ (F k) (F' k)) : χ.BlkIm κ (∑ k ∈ s, F k) (∑ k ∈ s, F' k) := by
  classical
  induction s using Finset.induction_on with
  | empty => exact BlkIm.zero
  | insert a s ha ih =>
    rw [Finset.sum_insert ha, Finset.sum_insert ha]
    exact (h a (by simp)).add (ih fun k hk => h k (by simp [hk]))

end blocks

/-! ### Matrices -/

/-- A row of images. -/
theorem mulRow_im {κ : ℝ} {N : ℕ} {A A' : ℕ × ℕ → Blk (Fin 4)} {i : ℕ} (h : ∀ q, q < N → χ.BlkIm κ (A (i, q)) (A' (i, q))) (x : ℕ → St) (v : Fin 4) :
    mulRow N A' (fun q => χ.st (x q)) i v = κ * χ.st (mulRow N A x i) v := by
  unfold mulRow
  have hs : ∀ (s : Finset ℕ) (f : ℕ → St) (v : Fin 4), χ.st (fun v => ∑ q ∈ s, f q v) v = ∑ q ∈ s, χ.st (f q) v := fun s f v => by
    have h1 := congrFun (map_sum χ.lin f s) v
    simp only [lin_apply, Finset.sum_apply] at h1
    rw [← h1]
    congr 1
    funext w; simp
  rw [hs (range N) (fun q v => ∑ c, A (i, q) v c * x q c) v, Finset.mul_sum]
  refine sum_congr rfl fun q hq => ?_
  exact congrFun (h q (mem_range.1 hq) (x q)) v

/-- The map of states is invertible. -/
noncomputable def inv (u : St) : St := ![u 0 / χ.a, (χ.c * u 1 + χ.s * u 2) / (χ.a * χ.b), χ.e * (-χ.s * u 1 + χ.c * u 2) / (χ.a * χ.b), u 3 / (χ.a * χ.b ^ 2)]

theorem st_inv (u : St) : χ.st (χ.inv u) = u := by
  have ha := χ.ha.ne'
  have hb := χ.hb.ne'
  have hu := χ.unit
  have hf := χ.flip
  funext i
  fin_cases i
  · simp [st, inv]; field_simp
  · simp [st, inv]; field_simp; linear_combination u 1 * hu - χ.s * (-χ.s * u 1 + χ.c * u 2) * hf
  · simp [st, inv]; field_simp; linear_combination u 2 * hu + χ.c * (-χ.s * u 1 + χ.c * u 2) * hf
  · simp [st, inv]; field_simp

theorem st_injective {u w : St} (h : χ.st u = χ.st w) : u = w := by
  have ha := χ.ha.ne'
  have hb := χ.hb.ne'
  have hu := χ.unit
  have hf := χ.flip
  have h0 := congrFun h 0
  have h1 := congrFun h 1
  have h2 := congrFun h 2
  have h3 := congrFun h 3
  simp only [st_0, st_1, st_2, st_3] at h0 h1 h2 h3
  have h1 := mul_left_cancel₀ (mul_ne_zero ha hb) h1
  have h2 := mul_left_cancel₀ (mul_ne_zero ha hb) h2
  funext i
  fin_cases i
  · exact mul_left_cancel₀ ha h0
  · show u 1 = w 1
    linear_combination χ.c * h1 + χ.s * h2 - (u 1 - w 1) * hu
  · show u 2 = w 2
    linear_combination χ.e * (χ.c * h2 - χ.s * h1) - χ.e * χ.e * (u 2 - w 2) * hu - (u 2 - w 2) * hf
  · exact mul_left_cancel₀ (mul_ne_zero ha (pow_ne_zero 2 hb)) h3

theorem st_zero : χ.st 0 = 0 := by funext i; fin_cases i <;> simp [st]

/-- C104, linear systems: where a matrix maps images to images, up to a factor, it is regular with the other and the solution of the image system is the image of the solution. -/
theorem C104_system {N : ℕ} {κ : ℝ} (hκ : κ ≠ 0) {A A' : ℕ × ℕ → Blk (Fin 4)} (h : ∀ x i, i < N → ∀ v, mulRow N A' (fun q => χ.st (x q)) i v = κ * χ.st (mulRow N A x i) v) :
    (Regular N A' ↔ Regular N A) ∧ (Regular N A → ∀ r r' x x' : ℕ → St, (∀ i, i < N → ∀ v, r' i v = κ * χ.st (r i) v) → (∀ i, i < N → mulRow N A x i = r i) →
      (∀ i, i < N → mulRow N A' x' i = r' i) → ∀ i, i < N → x' i = χ.st (x i)) := by
  have hreg : Regular N A → Regular N A' := fun hr y hy i hi => by
    have e : ∀ q, χ.st (χ.inv (y q)) = y q := fun q => χ.st_inv (y q)
    have h0 := hr (fun q => χ.inv (y q)) (fun j hj => by
      have h1 : ∀ v, κ * χ.st (mulRow N A (fun q => χ.inv (y q)) j) v = 0 := fun v => by
        rw [← h _ j hj v]
        simp only [e]
        rw [hy j hj]; rfl
      have h2 : χ.st (mulRow N A (fun q => χ.inv (y q)) j) = χ.st 0 := by
        rw [χ.st_zero]; funext v; exact (mul_eq_zero.1 (h1 v)).resolve_left hκ
      exact χ.st_injective h2) i hi
    rw [← e i, h0, χ.st_zero]
  refine ⟨⟨fun hr x hx i hi => ?_, hreg⟩, fun hr r r' x x' hrr hx hx' i hi => ?_⟩
  · have h0 := hr (fun q => χ.st (x q)) (fun j hj => by
      funext v
      rw [h x j hj v, hx j hj, χ.st_zero]; simp) i hi
    exact χ.st_injective (h0.trans χ.st_zero.symm)
  · refine (hreg hr).unique (y := fun q => χ.st (x q)) (fun j hj => ?_) hi
    funext v
    rw [hx' j hj, hrr j hj v, h x j hj v, hx j hj]

end Chart

/-! ### Blocks of faces -/

/-- The same discretisation in the chart `χ` with lengths multiplied by `L`: faces, gas, boundary conditions; for viscous flow the Reynolds number and the distances and
directions between cell centres. -/
structure Charted (χ : Chart) (L : ℝ) (D D' : Disc) : Prop where
  pos : 0 < L
  nelem : D'.G.m.nelem = D.G.m.nelem
  nbface : D'.G.m.nbface = D.G.m.nbface
  nface : D'.G.nface = D.G.nface
  face : ∀ k, D'.G.face k = D.G.face k
  inner : ∀ k, D'.G.inner k ↔ D.G.inner k
  nrm : ∀ k, k < D.G.nface → D'.G.nrm k = χ.dir (D.G.nrm k)
  len : ∀ k, k < D.G.nface → D'.G.len k = L * D.G.len k
  ar : ∀ i, i < D.G.m.nelem → D'.G.ar i = L * L * D.G.ar i
  gas : χ.GasIm D.gas D'.gas
  viscous : D'.viscous = D.viscous
  constVisc : D'.constVisc = D.constVisc
  re : D.viscous = true → D'.gas.Reinf = D.gas.Reinf / (χ.a * χ.b * L)
  dist : D.viscous = true → ∀ k, k < D.G.nface → cdist (D'.G.xl k) (D'.G.xr k) = L * cdist (D.G.xl k) (D.G.xr k)
  vec : D.viscous = true → ∀ k, k < D.G.nface → cdir (D'.G.xl k) (D'.G.xr k) = χ.dir (cdir (D.G.xl k) (D.G.xr k))
  bc : ∀ k, k < D.G.m.nbface → D'.bc (D'.tag k) = (D.bc (D.tag k)).map χ.obj

/-- Specification: the routines `J` and `J'` for flux Jacobians give images of each other at admissible states. -/
def Chart.FamIm (χ : Chart) (G : Gas) (J J' : St → St → V2 → FJ) : Prop :=
  ∀ ul ur n, Adm G ul → Adm G ur → χ.JacIm χ.b (J ul ur n) (J' (χ.st ul) (χ.st ur) (χ.dir n))

namespace Chart
/-- C104: all flux Jacobians of the code qualify. -/
theorem C104_families (χ : Chart) {G G' : Gas} (hg : G'.g = G.g) : χ.FamIm G (llfJac G) (llfJac G') ∧ χ.FamIm G (hllJac G) (hllJac G') ∧
    χ.FamIm G (ausmJac G) (ausmJac G') ∧ χ.FamIm G (roeJac G) (roeJac G') ∧ (4 ≤ 3 * G.g → χ.FamIm G (hllcJac G) (hllcJac G')) :=
  ⟨fun _ _ n hl hr => χ.C104_llf hg hl hr n, fun _ _ n hl hr => χ.C104_hll hg hl hr n, fun _ _ n hl hr => χ.C104_ausm hg hl hr n,
    fun _ _ n hl hr => χ.C104_roe hg hl hr n, fun h43 _ _ n hl hr => χ.C104_hllc hg hl hr h43 n⟩
end Chart

/-- Cell states are admissible, and so are the ghost states at which boundary Jacobians are evaluated. -/
structure GoodAt (D : Disc) (u : ℕ → St) : Prop where
  cell : ∀ i, i < D.G.m.nelem → Adm D.gas (u i)
  ghost : ∀ k, k < D.G.m.nbface → Adm D.gas (D.bjac k (u (D.G.face k).left) (D.G.nrm k)).gs

namespace Charted
variable {χ : Chart} {L : ℝ} {D D' : Disc} (h : Charted χ L D D')
include h

/-- Boundary conditions with Jacobians. -/
theorem bcJOk : D'.BcJOk ↔ D.BcJOk := by
  have key : ∀ o : BC.Obj, ((χ.obj o).ghostJ D'.gas).isSome ↔ (o.ghostJ D.gas).isSome := fun o => by
    cases o <;> simp [Chart.obj, BC.Obj.ghostJ]
  unfold Disc.BcJOk
  rw [h.nbface]
  refine forall_congr' fun k => forall_congr' fun hk => ?_
  rw [h.bc k hk]
  cases D.bc (D.tag k) with
  | none => simp
  | some o => simp [key]

theorem bjac (hb : D.BcJOk) {k : ℕ} (hk : k < D.G.m.nbface) {u : St} (hu : u 0 ≠ 0) (n : V2) : (D'.bjac k (χ.st u) (χ.dir n)).gs = χ.st (D.bjac k u n).gs ∧
    χ.BlkIm 1 (D.bjac k u n).dgs (D'.bjac k (χ.st u) (χ.dir n)).dgs := by
  obtain ⟨o, h1, h2⟩ := hb k hk
  obtain ⟨f, hf⟩ := Option.isSome_iff_exists.1 h2
  obtain ⟨f', hf', him⟩ := χ.C104_ghost h.gas hf
  unfold Disc.bjac
  rw [h.bc k hk, h1]
  simp only [Option.map_some, Option.bind_some, hf, hf', Option.getD_some]
  exact him u n hu

/-- Both blocks of a face before integration. -/
theorem sides {J J' : St → St → V2 → FJ} (hJ : χ.FamIm D.gas J J') {k : ℕ} (hk : k < D.G.nface) {ul ur : St} (hl : Adm D.gas ul) (hr : Adm D.gas ur) :
    χ.BlkIm χ.b (fun a b => (J ul ur (D.G.nrm k)).dfdl a b + if D.viscous then (viscousJac D.gas D.constVisc (D.G.nrm k) (D.G.xl k) (D.G.xr k) ul ur).1 a b else 0)
      (fun a b => (J' (χ.st ul) (χ.st ur) (D'.G.nrm k)).dfdl a b +
        if D'.viscous then (viscousJac D'.gas D'.constVisc (D'.G.nrm k) (D'.G.xl k) (D'.G.xr k) (χ.st ul) (χ.st ur)).1 a b else 0) ∧
    χ.BlkIm χ.b (fun a b => (J ul ur (D.G.nrm k)).dfdr a b + if D.viscous then (viscousJac D.gas D.constVisc (D.G.nrm k) (D.G.xl k) (D.G.xr k) ul ur).2 a b else 0)
      (fun a b => (J' (χ.st ul) (χ.st ur) (D'.G.nrm k)).dfdr a b +
        if D'.viscous then (viscousJac D'.gas D'.constVisc (D'.G.nrm k) (D'.G.xl k) (D'.G.xr k) (χ.st ul) (χ.st ur)).2 a b else 0) := by
  have hi := hJ ul ur (D.G.nrm k) hl hr
  rw [h.nrm k hk, h.viscous, h.constVisc]
  by_cases hv : D.viscous = true
  · have hvi := χ.C104_viscous h.gas (h.re hv) h.pos.ne' D.constVisc hl.rho' hr.rho' (D.G.nrm k) (h.dist hv k hk) (h.vec hv k hk)
    simp only [hv, if_true]
    exact ⟨hi.l.add hvi.l, hi.r.add hvi.r⟩
  · simp only [hv, if_false, add_zero, Bool.false_eq_true]
    exact ⟨hi.l, hi.r⟩

theorem blkInterior {J J' : St → St → V2 → FJ} (hJ : χ.FamIm D.gas J J') {k : ℕ} (hk : k < D.G.nface) {ul ur : St} (hl : Adm D.gas ul) (hr : Adm D.gas ur) :
    χ.JacIm (χ.b * L) (D.blkInterior J k ul ur) (D'.blkInterior J' k (χ.st ul) (χ.st ur)) := by
  obtain ⟨h1, h2⟩ := h.sides hJ hk hl hr
  refine ⟨?_, ?_⟩
  · have := h1.scale L _ _ (h.len k hk)
    simp only [mul_comm (D.G.len k), mul_comm (D'.G.len k)] at this
    exact this
  · have := h2.scale L _ _ (h.len k hk)
    simp only [mul_comm (D.G.len k), mul_comm (D'.G.len k)] at this
    exact this

theorem blkBoundary {J J' : St → St → V2 → FJ} (hJ : χ.FamIm D.gas J J') (hb : D.BcJOk) {k : ℕ} (hk : k < D.G.m.nbface) (hkf : k < D.G.nface) {ul : St} (hl : Adm D.gas ul)
    (hg : Adm D.gas (D.bjac k ul (D.G.nrm k)).gs) :
    χ.BlkIm (χ.b * L) (D.blkBoundary J (D.bjac k) k ul) (D'.blkBoundary J' (D'.bjac k) k (χ.st ul)) := by
  obtain ⟨b1, b2⟩ := h.bjac hb hk hl.rho' (D.G.nrm k)
  rw [← h.nrm k hkf] at b1 b2
  obtain ⟨h1, h2⟩ := h.sides hJ hkf hl hg
  rw [← b1] at h1 h2
  exact (h1.sub (h2.mul b2)).scale L _ _ (h.len k hkf)

/-- C104, the assembled Jacobian: every block in the new chart is the old block conjugated by the change of chart, up to the factor of fluxes. -/
theorem C104_jacobian (hok : D.G.Ok) (hn0 : D.G.m.nconnface = 0) {J J' : St → St → V2 → FJ} (hJ : χ.FamIm D.gas J J') (hb : D.BcJOk) {u u' : ℕ → St}
    (hu : ∀ i, i < D.G.m.nelem → u' i = χ.st (u i)) (hg : GoodAt D u) (x : ℕ × ℕ) :
    χ.BlkIm (χ.b * L) (D.jacSum J (oneCol D.G.m) u x) (D'.jacSum J' (oneCol D'.G.m) u' x) := by
  have hcol : oneCol D'.G.m = oneCol D.G.m := by unfold oneCol numbering; rw [h.nelem]; rfl
  unfold Disc.jacSum
  rw [h.nface, hcol]
  refine Chart.BlkIm.sum fun k hk => ?_
  have hk := mem_range.1 hk
  obtain ⟨k1, k2, k3, k4, k5⟩ := hok.kind hk
  obtain ⟨i, j⟩ := x
  have app : ∀ (P : Prop) [Decidable P] {A A' : Blk (Fin 4)}, χ.BlkIm (χ.b * L) A A' → χ.BlkIm (χ.b * L) (if P then A else 0) (if P then A' else 0) := by
    intro P _ A A' hA; split_ifs
    · exact hA
    · exact Chart.BlkIm.zero
  unfold jacUpds
  simp only [h.face, h.nbface, hu _ k1]
  by_cases hbk : k < D.G.m.nbface
  · simp only [hbk, if_true, amtAt_ent]
    exact app _ (h.blkBoundary hJ hb hbk hk (hg.cell _ k1) (hg.ghost k hbk)).neg
  · have hr : (D.G.face k).right < D.G.m.nelem := by have := k5 (by omega); omega
    have hin : D.G.inner k := k4.2 hr
    have hin' : D'.G.inner k := (h.inner k).2 hin
    have him := h.blkInterior hJ hk (hg.cell _ k1) (hg.cell _ hr)
    simp only [hbk, hin, hin', if_true, if_false, amtAt_append, amtAt_ent, hu _ hr]
    exact (((app _ him.l).add (app _ him.r)).add (app _ him.l.neg)).add (app _ him.r.neg)

/-- C104, the system matrix: with time steps of the new units the whole matrix is conjugated. -/
theorem C104_matrix (hok : D.G.Ok) (hn0 : D.G.m.nconnface = 0) {J J' : St → St → V2 → FJ} (hJ : χ.FamIm D.gas J J') (hb : D.BcJOk) {u u' : ℕ → St}
    (hu : ∀ i, i < D.G.m.nelem → u' i = χ.st (u i)) (hg : GoodAt D u) {o o' : Disc.Out} (hdt : ∀ i, i < D.G.m.nelem → D'.timestep o'.uL o'.uR i = L / χ.b * D.timestep o.uL o.uR i)
    (cfl : ℝ) (x : ℕ → St) {i : ℕ} (hi : i < D.G.m.nelem) (v : Fin 4) :
    mulRow D.G.m.nelem (sysOne D' J' u' o' cfl) (fun q => χ.st (x q)) i v = χ.b * L * χ.st (mulRow D.G.m.nelem (sysOne D J u o cfl) x i) v := by
  have e1 := sysOne_mulRow (D := D') (J := J') (u := u') (o := o') (cfl := cfl) (fun q => χ.st (x q)) (i := i) (by rw [h.nelem]; exact hi) v
  rw [h.nelem] at e1
  have e2 : mulRow D.G.m.nelem (sysOne D J u o cfl) x i = fun w => mulRow D.G.m.nelem (D.jacSum J (oneCol D.G.m) u) x i w + D.G.ar i / (cfl * D.timestep o.uL o.uR i) * x i w :=
    funext fun w => sysOne_mulRow x hi w
  rw [e1, e2, Chart.st_plus, Chart.st_mul, χ.mulRow_im (fun q _ => h.C104_jacobian hok hn0 hJ hb hu hg (i, q)), h.ar i hi, hdt i hi, mul_add]
  congr 1
  have hL := h.pos.ne'
  have hbb := χ.hb.ne'
  rw [show cfl * (L / χ.b * D.timestep o.uL o.uR i) = L / χ.b * (cfl * D.timestep o.uL o.uR i) by ring,
    show L * L * D.G.ar i = L / χ.b * (χ.b * L * D.G.ar i) by field_simp, mul_div_mul_left _ _ (div_ne_zero hL hbb)]
  ring

end Charted
end FVENS
