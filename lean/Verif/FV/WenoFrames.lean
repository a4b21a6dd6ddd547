import Verif.FV.SimilarEx
import Verif.FV.UnitsRun

/-!
# The WENO reconstruction in other axes and units (C94, C99)

The weights of `WENOReconstruction` compare squared gradients of each variable with the number 1e-5 (src/spatial/limitedlinearreconstruction.cpp:57-88).
-/

namespace FVENS

open Msh Flux FV Par Finset

namespace FV

/-- Factor with which the gradient of a cell enters its WENO gradient if it has `n` neighbours without gradient; `m` is the squared gradient
(src/spatial/limitedlinearreconstruction.cpp:55-84). -/
noncomputable def wenoOne (lam : ℝ) (n : ℕ) (m : ℝ) : ℝ := lam / (m + 1e-5) ^ 4 / (lam / (m + 1e-5) ^ 4 + n / (1e-5 : ℝ) ^ 4)

theorem wenoGrad_one (lam : ℝ) {rows : ℕ} {g : ℕ → Fin 2 → ℝ} {i : ℕ} (hi : i < rows) (nb : List ℕ) (hg : ∀ j ∈ nb, g j = 0) :
    wenoGrad lam rows g i nb = some fun d => wenoOne lam (nb.filter (· < rows)).length (gradMag2 (g i)) * g i d := by
  have hfold : ∀ nb : List ℕ, (∀ j ∈ nb, g j = 0) → nb.foldl (fun (o : Option (ℝ × (Fin 2 → ℝ))) j => o.bind fun s => if j ≥ rows then some s else (rd rows g j).map fun gj =>
        (s.1 + 1 / (gradMag2 gj + 1e-5) ^ 4, fun d => s.2 d + 1 / (gradMag2 gj + 1e-5) ^ 4 * gj d))
      (some (0 + lam / (gradMag2 (g i) + 1e-5) ^ 4, fun d => 0 + lam / (gradMag2 (g i) + 1e-5) ^ 4 * g i d)) =
      some (lam / (gradMag2 (g i) + 1e-5) ^ 4 + (nb.filter (· < rows)).length / (1e-5 : ℝ) ^ 4, fun d => lam / (gradMag2 (g i) + 1e-5) ^ 4 * g i d) := by
    intro nb hg
    induction nb using List.reverseRecOn with
    | nil => simp
    | append_singleton nb j ih =>
      rw [List.foldl_append, ih fun j hj => hg j (by simp [hj]), List.foldl_cons, List.foldl_nil, Option.bind_some]
      by_cases hj : j < rows
      · rw [if_neg (by omega), rd, if_pos hj, Option.map_some, hg j (by simp), List.filter_append, List.length_append]
        have hz : gradMag2 (0 : Fin 2 → ℝ) = 0 := by simp [gradMag2]
        have h1 : ([j].filter (fun x => decide (x < rows))).length = 1 := by simp [hj]
        rw [hz, h1]
        simp only [Pi.zero_apply, mul_zero, add_zero, zero_add]
        congr 2
        push_cast
        ring
      · rw [if_pos (by omega), List.filter_append]
        have h1 : [j].filter (fun x => decide (x < rows)) = [] := by simp [hj]
        rw [h1, List.append_nil]
  unfold wenoGrad
  simp only [rd, if_pos hi, Option.map_some]
  have := hfold nb hg
  simp only [rd] at this
  rw [this]
  simp only [Option.map_some, wenoOne]
  congr 1
  funext d
  ring

theorem wenoOne_inj {lam : ℝ} (hl : 0 < lam) {n : ℕ} (hn : 0 < n) {x y : ℝ} (hx : 0 ≤ x) (hy : 0 ≤ y) (h : wenoOne lam n x = wenoOne lam n y) : x = y := by
  have hn' : (0 : ℝ) < n := Nat.cast_pos.2 hn
  have e : ∀ z : ℝ, 0 ≤ z → wenoOne lam n z = lam * (1e-5) ^ 4 / (lam * (1e-5) ^ 4 + n * (z + 1e-5) ^ 4) := fun z hz => by
    have h1 : (z + 1e-5) ^ 4 ≠ 0 := by positivity
    unfold wenoOne
    field_simp
  rw [e x hx, e y hy, div_eq_div_iff (by positivity) (by positivity)] at h
  have hp : 0 < lam * (1e-5 : ℝ) ^ 4 := by positivity
  have h1 := mul_left_cancel₀ hp.ne' h
  have h2 : (y + 1e-5) ^ 4 = (x + 1e-5) ^ 4 := mul_left_cancel₀ hn'.ne' (add_left_cancel h1)
  have h3 := (pow_left_inj₀ (by positivity : 0 ≤ y + 1e-5) (by positivity : 0 ≤ x + 1e-5) (by norm_num : 4 ≠ 0)).1 h2
  linarith

namespace Geo
variable {G : Geo}

theorem right_mem_nbrs (h : G.Ok) {k : ℕ} (hk : k < G.nface) : (G.face k).right ∈ G.nbrs (G.face k).left := by
  have hl := (h.kind hk).1
  obtain ⟨⟨f, hf, he⟩, _⟩ := face_local h.conf h.topo (faceAt_mem (faces := G.s.faces) hk)
  have hes := (C71_neighbour h.conf h.topo hf (faceAt_get hk) ⟨he.symm, Or.inl rfl⟩).1 rfl
  unfold nbrs
  rw [List.mem_map]
  refine ⟨f, List.mem_range.2 (by rw [h.conf.lin.nf _ hl]; exact hf.2), ?_⟩
  change G.s.esuel (G.face k).left f = some (G.face k).right at hes
  rw [hes]; rfl

theorem self_notMem_nbrs (h : G.Ok) {i : ℕ} (hi : i < G.m.nelem) : i ∉ G.nbrs i := fun hm => by
  unfold nbrs at hm
  obtain ⟨f, hf, he⟩ := List.mem_map.1 hm
  rw [List.mem_range, h.conf.lin.nf i hi] at hf
  obtain ⟨hkl, j, hes, hc⟩ := h.cface_spec hi hf
  rw [hes, Option.getD_some] at he
  obtain ⟨-, k2, -⟩ := h.kind hkl
  rcases hc with ⟨_, hl, hr⟩ | ⟨_, hr, hl⟩
  · omega
  · omega

end Geo

namespace Disc
variable {D : Disc}

/-- WENO values on the left of a face. -/
theorem recon_weno (hok : D.G.Ok) {lam : ℝ} (hl : 0 < lam) (u ug : ℕ → St) (g : ℕ → Gr) (a : Bool × ℕ → St) : ∃ x, D.recon (.weno lam) u ug g a = some x ∧
    ∀ k, k < D.G.nface → ∀ v, x (true, k) v = linExt (u (D.G.face k).left v)
      ((wenoGrad lam D.G.rows (fun i d => g i d v) (D.G.face k).left (D.G.nbrs (D.G.face k).left)).getD 0) 1 (D.G.mid k) (D.G.rc (D.G.face k).left) := by
  have hc : ∀ v : Fin 4, ∃ y, D.recon1 (.weno lam) (fun i => u i v) (fun k => ug k v) (fun i d => g i d v) (fun x => a x v) = some y ∧
      ∀ k, k < D.G.nface → y (true, k) = linExt (u (D.G.face k).left v)
        ((wenoGrad lam D.G.rows (fun i d => g i d v) (D.G.face k).left (D.G.nbrs (D.G.face k).left)).getD 0) 1 (D.G.mid k) (D.G.rc (D.G.face k).left) := fun v => by
    have hs : ∀ i < D.G.m.nelem, (wenoGrad lam D.G.rows (fun i d => g i d v) i (D.G.nbrs i)).isSome := fun i hi => by
      obtain ⟨v, hv, _⟩ := C49_convex hl D.G.rows (fun i d => g i d v) (i := i) (by unfold Geo.rows; omega) (D.G.nbrs i)
      rw [hv]; rfl
    unfold recon1
    simp only
    unfold Geo.weno
    rw [if_pos hs]
    exact ⟨_, rfl, fun k hk => (Geo.cellWrite_spec hok _ _ hk).1⟩
  choose y hy1 hy2 using hc
  refine ⟨fun x v => y v x, ?_, fun k hk v => hy2 v k hk⟩
  unfold recon
  dsimp only
  rw [if_pos fun v => by rw [hy1 v]; rfl]
  simp only [hy1, Option.getD_some]

end Disc

/-! ### Refutations -/

section refuted
variable {D : Disc} (hok : D.G.Ok) {lam : ℝ} (hl : 0 < lam) {k : ℕ} (hk : k < D.G.nface)

/-- Number of neighbours of the cell on the left of a face that have a row (src/spatial/limitedlinearreconstruction.cpp:70-76). -/
def nnb (G : Geo) (k : ℕ) : ℕ := ((G.nbrs (G.face k).left).filter (· < G.rows)).length

include hok hk

theorem nnb_pos (hi : D.G.inner k) : 0 < nnb D.G k := by
  have hr : (D.G.face k).right < D.G.rows := by have := (hok.kind hk).2.2.2.1.1 hi; unfold Geo.rows; omega
  exact List.length_pos_of_mem (List.mem_filter.2 ⟨Geo.right_mem_nbrs hok hk, by simpa using hr⟩)

/-- WENO value on the left of a face if only the cell on the left has a gradient. -/
theorem weno_face {g : ℕ → Fin 2 → ℝ} (hg : ∀ j, j ≠ (D.G.face k).left → g j = 0) (uc : ℝ) (p q : V2) :
    linExt uc ((wenoGrad lam D.G.rows g (D.G.face k).left (D.G.nbrs (D.G.face k).left)).getD 0) 1 p q =
      uc + wenoOne lam (nnb D.G k) (gradMag2 (g (D.G.face k).left)) * (g (D.G.face k).left 0 * (p 0 - q 0) + g (D.G.face k).left 1 * (p 1 - q 1)) := by
  have h1 := (hok.kind hk).1
  rw [wenoGrad_one lam (by unfold Geo.rows; omega) _ fun j hj => hg j fun e => Geo.self_notMem_nbrs hok h1 (by rw [e] at hj; exact hj)]
  unfold linExt nnb
  simp only [Option.getD_some]
  ring

include hl

/-- C99 fails for the WENO reconstruction with every change of the units of density or velocity: on every mesh and every interior face there are cell values and gradients whose
face state in the other units is not the face state. -/
theorem C99_weno_refuted (hi : D.G.inner k) (hd : D.G.mid k ≠ D.G.rc (D.G.face k).left) (T : Units) (hT : T.a ≠ 1 ∨ T.b ≠ 1) (ug ug' : ℕ → St) (a a' : Bool × ℕ → St) :
    ∃ (u : ℕ → St) (g : ℕ → Gr) (x x' : Bool × ℕ → St), D.recon (.weno lam) u ug g a = some x ∧
      (T.disc D).recon (.weno lam) (fun i => T.pr (u i)) ug' (fun i d => T.pr (g i d)) a' = some x' ∧ x' (true, k) ≠ T.pr (x (true, k)) := by
  obtain ⟨v, w0, w1⟩ : ∃ v, 0 < T.w v ∧ T.w v ≠ 1 := by
    rcases hT with h | h
    · exact ⟨0, T.ha, h⟩
    · exact ⟨1, T.hb, h⟩
  let g : ℕ → Gr := fun j d v => if j = (D.G.face k).left then D.G.mid k d - D.G.rc (D.G.face k).left d else 0
  obtain ⟨x, hx1, hx2⟩ := Disc.recon_weno hok hl 0 ug g a
  obtain ⟨x', hx1', hx2'⟩ := Disc.recon_weno (D := T.disc D) hok hl (fun i => T.pr ((0 : ℕ → St) i)) ug' (fun i d => T.pr (g i d)) a'
  refine ⟨0, g, x, x', hx1, hx1', fun heq => w1 ?_⟩
  have prv : ∀ y : St, T.pr y v = T.w v * y v := fun y => congrFun (pr_w T y) v
  have e1 := hx2 k hk v
  have e2 := hx2' k hk v
  have hz : ∀ j, j ≠ (D.G.face k).left → (fun d => g j d v) = 0 := fun j hj => funext fun d => if_neg hj
  rw [weno_face hok hk hz] at e1
  erw [weno_face hok hk (g := fun i d => T.pr (g i d) v) fun j hj => by
    funext d
    show T.pr (g j d) v = 0
    rw [prv, show g j d v = 0 from if_neg hj, mul_zero]] at e2
  set q : ℝ := (D.G.mid k 0 - D.G.rc (D.G.face k).left 0) * (D.G.mid k 0 - D.G.rc (D.G.face k).left 0) +
    (D.G.mid k 1 - D.G.rc (D.G.face k).left 1) * (D.G.mid k 1 - D.G.rc (D.G.face k).left 1) with hq
  have hq0 : 0 < q := by
    rcases eq_or_ne (D.G.mid k 0) (D.G.rc (D.G.face k).left 0) with h0 | h0
    · have h1 : D.G.mid k 1 ≠ D.G.rc (D.G.face k).left 1 := fun h1 => hd (funext fun d => by fin_cases d; exacts [h0, h1])
      have := mul_self_pos.2 (sub_ne_zero.2 h1)
      nlinarith [mul_self_nonneg (D.G.mid k 0 - D.G.rc (D.G.face k).left 0)]
    · have := mul_self_pos.2 (sub_ne_zero.2 h0)
      nlinarith [mul_self_nonneg (D.G.mid k 1 - D.G.rc (D.G.face k).left 1)]
  have hgl : ∀ d, g (D.G.face k).left d v = D.G.mid k d - D.G.rc (D.G.face k).left d := fun d => if_pos rfl
  have hm : gradMag2 (fun d => g (D.G.face k).left d v) = q := by unfold gradMag2; simp only [hgl, zero_add, hq]
  have hm' : gradMag2 (fun d => T.pr (g (D.G.face k).left d) v) = T.w v ^ 2 * q := by
    unfold gradMag2; simp only [prv, hgl, hq]; ring
  have e3 := congrFun heq v
  rw [e2, prv (x _), e1] at e3
  change T.pr 0 v + wenoOne lam (nnb D.G k) (gradMag2 fun d => T.pr (g (D.G.face k).left d) v) * (T.pr (g (D.G.face k).left 0) v * (D.G.mid k 0 - D.G.rc (D.G.face k).left 0) +
    T.pr (g (D.G.face k).left 1) v * (D.G.mid k 1 - D.G.rc (D.G.face k).left 1)) = _ at e3
  rw [hm, hm'] at e3
  simp only [prv, hgl, Pi.zero_apply, mul_zero, zero_add] at e3
  have e4 : wenoOne lam (nnb D.G k) (T.w v ^ 2 * q) * (T.w v * q) = wenoOne lam (nnb D.G k) q * (T.w v * q) := by
    linear_combination e3
  have e5 := wenoOne_inj hl (nnb_pos hok hk hi) (by positivity) hq0.le (mul_right_cancel₀ (mul_pos w0 hq0).ne' e4)
  have e6 : T.w v ^ 2 = 1 := by
    have : (T.w v ^ 2 - 1) * q = 0 := by linear_combination e5
    rcases mul_eq_zero.1 this with h | h
    · linarith
    · exact absurd h hq0.ne'
  nlinarith

/-- C94 fails for the WENO reconstruction if the unit of length changes or the axes are turned by an angle that is no multiple of the right angle: on every mesh and every interior
face there are cell values and gradients whose face state is not turned along with the mesh. -/
theorem C94_weno_refuted {T : Similarity} {D' : Disc} (h : Moved T D D') (hi : D.G.inner k) (hd : D.G.mid k ≠ D.G.rc (D.G.face k).left) (hT : T.L ≠ 1 ∨ T.c ≠ 0 ∧ T.s ≠ 0)
    (ug ug' : ℕ → St) (a a' : Bool × ℕ → St) :
    ∃ (u : ℕ → St) (g : ℕ → Gr) (x x' : Bool × ℕ → St), D.recon (.weno lam) u ug g a = some x ∧
      D'.recon (.weno lam) (fun i => T.st (u i)) ug' (fun i => T.gr (g i)) a' = some x' ∧ x' (true, k) ≠ T.st (x (true, k)) := by
  -- the component with a gradient, and the factor of that component in the turned states
  obtain ⟨v, κ, hκ, hv, hκ2⟩ : ∃ (v : Fin 4) (κ : ℝ), κ ≠ 0 ∧ (∀ y : ℝ, T.st (fun v' => if v' = v then y else 0) v = κ * y) ∧ κ ^ 2 ≠ T.L ^ 2 := by
    have hL := T.pos
    by_cases h1 : T.L = 1
    · obtain ⟨hc, hs⟩ := hT.resolve_left (not_not.2 h1)
      refine ⟨1, T.c, hc, fun y => by simp [Similarity.st, rotS], ?_⟩
      rw [h1]
      intro e
      have hu := T.unit
      exact hs (by nlinarith [mul_self_nonneg T.s])
    · refine ⟨0, 1, one_ne_zero, fun y => by simp [Similarity.st, rotS], fun e => h1 ?_⟩
      nlinarith
  set i := (D.G.face k).left with hil
  have hok' := h.ok hok
  have hLp := T.pos
  have hli : i < D.G.rows := by have := (hok.kind hk).1; unfold Geo.rows; omega
  let e : V2 := fun d => D.G.mid k d - D.G.rc i d
  let g : ℕ → Gr := fun j d v' => if v' = v then (if j = i then e d else 0) else 0
  obtain ⟨x, hx1, hx2⟩ := Disc.recon_weno hok hl 0 ug g a
  obtain ⟨x', hx1', hx2'⟩ := Disc.recon_weno hok' hl (fun i => T.st ((0 : ℕ → St) i)) ug' (fun i => T.gr (g i)) a'
  refine ⟨0, g, x, x', hx1, hx1', fun heq => hκ2 ?_⟩
  have hst0 : ∀ v', T.st 0 v' = 0 := fun v' => by fin_cases v' <;> simp [Similarity.st, rotS]
  have hgst : ∀ j d, T.st (g j d) v = κ * (if j = i then e d else 0) := fun j d => hv _
  have hn : nnb D'.G k = nnb D.G k := by
    unfold nnb Geo.nbrs
    rw [h.face, h.rows, h.faces, h.mesh]
    rfl
  have e1 : x (true, k) = fun v' => if v' = v then wenoOne lam (nnb D.G k) (gradMag2 e) * gradMag2 e else 0 := funext fun v' => by
    rw [hx2 k hk v', weno_face hok hk fun j hj => by
      funext d
      show (if v' = v then (if j = i then e d else 0) else 0) = 0
      rw [if_neg hj, ite_self]]
    by_cases hvv : v' = v
    · have hgl : ∀ d, g (D.G.face k).left d v' = e d := fun d => by show (if v' = v then (if i = i then e d else 0) else 0) = e d; rw [if_pos hvv, if_pos rfl]
      simp only [hgl, if_pos hvv]
      show 0 + wenoOne lam (nnb D.G k) (gradMag2 e) * (e 0 * e 0 + e 1 * e 1) = _
      unfold gradMag2
      ring
    · have hgl : ∀ d, g (D.G.face k).left d v' = 0 := fun d => if_neg hvv
      simp only [hgl, if_neg hvv]
      simp
  have e2 := hx2' k (by rw [h.nface]; exact hk) v
  rw [weno_face hok' (by rw [h.nface]; exact hk) fun j hj => by
    rw [h.face] at hj
    have hz : ∀ d, T.st (g j d) v = 0 := fun d => by rw [hgst, if_neg hj, mul_zero]
    funext d
    fin_cases d
    · show (T.c * T.st (g j 0) v - T.s * T.st (g j 1) v) / T.L = 0
      rw [hz, hz]; simp
    · show (T.s * T.st (g j 0) v + T.c * T.st (g j 1) v) / T.L = 0
      rw [hz, hz]; simp] at e2
  rw [h.face, h.mid, h.rc _ hli, gr_diff, hn] at e2
  have hgi : ∀ d, T.st (g i d) v = κ * e d := fun d => by rw [hgst, if_pos rfl]
  have hmag : gradMag2 (fun d => T.gr (g i) d v) = κ ^ 2 / T.L ^ 2 * gradMag2 e := by
    unfold gradMag2
    show 0 + (T.c * T.st (g i 0) v - T.s * T.st (g i 1) v) / T.L * ((T.c * T.st (g i 0) v - T.s * T.st (g i 1) v) / T.L) +
      (T.s * T.st (g i 0) v + T.c * T.st (g i 1) v) / T.L * ((T.s * T.st (g i 0) v + T.c * T.st (g i 1) v) / T.L) = _
    rw [hgi, hgi]
    have hu := T.unit
    generalize e 0 = p
    generalize e 1 = q
    rw [div_mul_div_comm, div_mul_div_comm, zero_add, ← add_div, div_mul_eq_mul_div, ← pow_two T.L]
    congr 1
    linear_combination κ ^ 2 * (p ^ 2 + q ^ 2) * hu
  have hdot : T.st (fun v => g i 0 v * (D.G.mid k 0 - D.G.rc i 0) + g i 1 v * (D.G.mid k 1 - D.G.rc i 1)) v = κ * gradMag2 e := by
    rw [← hv]
    congr 1
    funext v'
    by_cases hvv : v' = v
    · simp only [g, if_pos hvv, if_true]
      show e 0 * e 0 + e 1 * e 1 = 0 + e 0 * e 0 + e 1 * e 1
      ring
    · simp only [g, if_neg hvv]; ring
  have hq0 : 0 < gradMag2 e := by
    unfold gradMag2
    rcases eq_or_ne (D.G.mid k 0) (D.G.rc i 0) with h0 | h0
    · have h1 : D.G.mid k 1 ≠ D.G.rc i 1 := fun h1 => hd (funext fun d => by fin_cases d; exacts [h0, h1])
      have : 0 < e 1 * e 1 := mul_self_pos.2 (sub_ne_zero.2 h1)
      nlinarith [mul_self_nonneg (e 0)]
    · have : 0 < e 0 * e 0 := mul_self_pos.2 (sub_ne_zero.2 h0)
      nlinarith [mul_self_nonneg (e 1)]
  have e3 := congrFun heq v
  rw [e2, e1, hv, hmag, hdot] at e3
  have e4 : wenoOne lam (nnb D.G k) (κ ^ 2 / T.L ^ 2 * gradMag2 e) * (κ * gradMag2 e) = wenoOne lam (nnb D.G k) (gradMag2 e) * (κ * gradMag2 e) := by
    have := hst0 v
    simp only [Pi.zero_apply, this] at e3
    linear_combination e3
  have e5 := wenoOne_inj hl (nnb_pos hok hk hi) (by positivity) hq0.le (mul_right_cancel₀ (mul_ne_zero hκ hq0.ne') e4)
  have e6 : κ ^ 2 / T.L ^ 2 = 1 := by
    have : (κ ^ 2 / T.L ^ 2 - 1) * gradMag2 e = 0 := by linear_combination e5
    rcases mul_eq_zero.1 this with h | h
    · linarith
    · exact absurd h hq0.ne'
  exact (div_eq_one_iff_eq (by positivity)).1 e6

end refuted
end FV

/-- Hypotheses of `C94_weno_refuted` and `C99_weno_refuted` are met by two squares: turned, doubled in size and shifted; and with other units of density and velocity. -/
example : ∃ s D D', topological pair = .ok s ∧ D.G.Ok ∧ Moved turn345 D D' ∧
    (∃ (u : ℕ → St) (g : ℕ → Gr) (x x' : Bool × ℕ → St), D.recon (.weno 20) u 0 g 0 = some x ∧
      D'.recon (.weno 20) (fun i => turn345.st (u i)) 0 (fun i => turn345.gr (g i)) 0 = some x' ∧ x' (true, 6) ≠ turn345.st (x (true, 6))) ∧
    ∃ (u : ℕ → St) (g : ℕ → Gr) (x x' : Bool × ℕ → St), D.recon (.weno 20) u 0 g 0 = some x ∧
      (units23.disc D).recon (.weno 20) (fun i => units23.pr (u i)) 0 (fun i d => units23.pr (g i d)) 0 = some x' ∧ x' (true, 6) ≠ units23.pr (x (true, 6)) := by
  obtain ⟨s, hs, hf⟩ := pair_topological
  let P : Settings := ⟨air, .roe, true, false, fun _ => some (.isothermal 1 2)⟩
  obtain ⟨h1, h2⟩ := C94_setup turn345 pair_conforming pair_nozero hs P (re := air.Reinf / 2) (fun _ => rfl) (ghost := 0) (ghost' := 0) (fun ic h => absurd h (Nat.not_lt_zero _))
  have hok : (P.disc pair s 0).G.Ok := ⟨pair_conforming, pair_nozero, hs⟩
  have f6 : (P.disc pair s 0).G.face 6 = ⟨0, 1, 1, 4⟩ := by show faceAt s.faces 6 = _; rw [hf]; rfl
  have h6 : 6 < (P.disc pair s 0).G.nface := by show 6 < s.faces.length; rw [hf]; decide
  have hi : (P.disc pair s 0).G.inner 6 := by
    obtain ⟨-, -, -, k4, -⟩ := hok.kind h6
    rw [k4, f6]
    show 1 < 2
    omega
  have hd : (P.disc pair s 0).G.mid 6 ≠ (P.disc pair s 0).G.rc ((P.disc pair s 0).G.face 6).left := by
    intro e
    rw [f6] at e
    have e := congrFun e 0
    unfold Geo.mid at e
    rw [f6] at e
    have c0 : centre pair 0 0 = 1 / 2 := by norm_num [centre, forLt, pair, show List.range 4 = [0, 1, 2, 3] from rfl]
    have c1 : (P.disc pair s 0).G.rc 0 0 = 1 / 2 := c0
    rw [show (⟨0, 1, 1, 4⟩ : Face).left = 0 from rfl, c1] at e
    norm_num [P, Settings.disc, pair, fMid] at e
  exact ⟨s, _, _, hs, hok, h2, C94_weno_refuted hok (by norm_num) h6 h2 hi hd (Or.inl (by norm_num [turn345])) 0 0 0 0,
    C99_weno_refuted hok (by norm_num) h6 hi hd units23 (Or.inl (by norm_num [units23])) 0 0 0 0⟩

end FVENS
