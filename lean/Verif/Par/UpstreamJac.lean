import Verif.Par.Upstream
import Verif.Par.Implicit
import Verif.Flux.Mirror
import Verif.Flux.ChartJac

/-!
# No influence against a supersonic stream: Jacobians and the implicit solver (C98)

Where the gas passes a face faster than sound the Jacobian blocks of the face are those of the upstream state alone. So the rows of the system matrix that belong to a set
left at supersonic speed have no entries outside the set, and an exact linear solver gives corrections in the set that do not depend on the rest.
-/

namespace FVENS
namespace Par

open Msh FV Flux Ode Lin FVENS.Chart
open Finset (range sum_eq_zero sum_congr mem_range mem_filter)

/-! ### Specification -/

/-- The blocks of a Jacobian routine are those of the upstream state wherever the scheme `s` sees a supersonic stream. -/
def UpJac (s : Scheme) (G : Gas) (J : St → St → V2 → FJ) : Prop := ∀ a b n, Adm G a → Adm G b → n 0 * n 0 + n 1 * n 1 = 1 →
  (Faster s G a b n → J a b n = ⟨fun i k => -G.dEulerFlux a n i k, 0⟩) ∧
  (Faster s G b a (-n) → J a b n = ⟨0, fun i k => G.dEulerFlux b n i k⟩)

/-! ### Fluxes -/

theorem up_of_exact {F : St → St → St} {G : Gas} {j : FJ} {a b : St} {n : V2} (ha : Adm G a) (h : IsFluxJac F j a b) (hl : ∀ᶠ x in nhds a, F x b = G.eulerFlux x n)
    (hr : ∀ᶠ y in nhds b, F a y = G.eulerFlux a n) : j = ⟨fun i k => -G.dEulerFlux a n i k, 0⟩ := by
  have e1 : j.dfdl = fun i k => -G.dEulerFlux a n i k := by
    funext i k
    have h1 := ((C03_eulerFlux G a n ha.rho' i).congr_of_eventuallyEq (hl.mono fun x hx => congrFun hx i)).unique (h i).1
    have := congrFun h1 k
    linarith
  have e2 : j.dfdr = 0 := by
    funext i
    exact (h i).2.unique ((HasGrad.const (G.eulerFlux a n i)).congr_of_eventuallyEq (hr.mono fun y hy => congrFun hy i))
  cases j
  simp only at e1 e2
  rw [e1, e2]

/-- The second half of `UpJac` from the first, for mirrored routines. -/
theorem upJac_of_mirror {s : Scheme} {G : Gas} {J : St → St → V2 → FJ} (h : ∀ a b n, Adm G a → Adm G b → Faster s G a b n → J a b n = ⟨fun i k => -G.dEulerFlux a n i k, 0⟩)
    (hm : ∀ a b n, Adm G a → Adm G b → n 0 * n 0 + n 1 * n 1 = 1 → Faster s G a b n → Mirror J a b n) : UpJac s G J := fun a b n ha hb hn => by
  refine ⟨h a b n ha hb, fun hf => ?_⟩
  have e := hm b a (-n) hb ha (by simpa using hn) hf
  unfold Mirror at e
  rw [neg_neg, h b a (-n) hb ha hf] at e
  rw [e]
  unfold FJ.swap
  simp only [dEulerFlux_neg, neg_neg]

section
variable {G : Gas}

/-- C98, HLL. -/
theorem C98_jacobian_hll : UpJac .hll G (hllJac G) := by
  refine upJac_of_mirror (fun a b n ha hb hf => ?_) fun a b n ha hb _ _ => C83_hll ha hb n
  have hs : 0 < slOf G a b n := hf
  have hr : 0 < srOf G a b n := hs.trans (sl_lt_sr ha hb)
  have t1 : hllT1 (slOf G a b n) (srOf G a b n) = 0 := by simp [hllT1, hs, hr]
  have t3 : hllT3 (slOf G a b n) (srOf G a b n) = 0 := by rw [hllT3, abs_of_pos hs, abs_of_pos hr]; ring
  unfold hllJac
  simp only [t1, t3]
  congr 1
  · funext i k; simp
  · funext i k; simp

/-- C98, HLLC. -/
theorem C98_jacobian_hllc (hg : 4 ≤ 3 * G.g) : UpJac .hllc G (hllcJac G) := fun a b n ha hb hn => by
  refine ⟨fun hf => ?_, fun hf => ?_⟩
  · have hs : slOf G a b n > 0 := hf
    unfold hllcJac
    simp only [hs, if_true]
    congr 1
    funext i k; ring
  · have hs : 0 < slOf G b a (-n) := hf
    rw [(slsr_swap ha hb n).1] at hs
    have hr : srOf G a b n < 0 := by linarith
    obtain ⟨o1, o2⟩ := C21_wave_order hg ha hb n
    unfold hllcJac
    simp only
    rw [if_neg (by linarith), if_neg (by rintro ⟨_, h⟩; linarith), if_neg (by rintro ⟨_, h⟩; linarith)]
    congr 1
    funext i k; simp

/-- C98, AUSM. -/
theorem C98_jacobian_ausm : UpJac .ausm G (ausmJac G) := by
  have key : ∀ a b n, Adm G a → Adm G b → Faster .ausm G a b n → ausmML (Gas.varsVn a n / cSide G a) + ausmMR (Gas.varsVn b n / cSide G b) ≠ 0 := fun a b n ha hb hf => by
    have h1 := (one_lt_div ha.c_pos).2 hf.1
    have h2 := (one_lt_div hb.c_pos).2 hf.2
    have k1 : ¬ |Gas.varsVn a n / cSide G a| ≤ 1 := fun h => by have := le_abs_self (Gas.varsVn a n / cSide G a); linarith
    have k2 : ¬ |Gas.varsVn b n / cSide G b| ≤ 1 := fun h => by have := le_abs_self (Gas.varsVn b n / cSide G b); linarith
    rw [ausmML, ausmMR, if_neg k1, if_neg k2, if_neg (by linarith), if_neg (by linarith)]
    linarith
  have hev : ∀ {a n}, Adm G a → cSide G a < Gas.varsVn a n → ∀ᶠ x in nhds a, cSide G x < Gas.varsVn x n := fun {a n} ha h =>
    (hasGrad_c ha).continuousAt.eventually_lt (hasGrad_varsVn ha.rho' n).continuousAt h
  refine upJac_of_mirror (fun a b n ha hb hf => ?_) fun a b n ha hb _ hf => C83_ausm_partial ha hb n (key a b n ha hb hf)
  refine up_of_exact ha (C18_ausm_exact ha hb n (key a b n ha hb hf)) ?_ ?_
  · filter_upwards [ha.eventually, hev ha hf.1] with x h1 h2
    exact Faster.flux (s := .ausm) ⟨h2, hf.2⟩ h1 hb
  · filter_upwards [hb.eventually, hev hb hf.2] with y h1 h2
    exact Faster.flux (s := .ausm) ⟨hf.1, h2⟩ ha h1

/-- C98, Roe. -/
theorem C98_jacobian_roe : UpJac .roe G (roeJac G) := by
  have hfe : (0:ℝ) < fixeps := by norm_num [fixeps]
  refine upJac_of_mirror (fun a b n ha hb hf => ?_) fun a b n ha hb _ hf => ?_
  · have hc : 0 < (roeOf G a b n).c := roe_c_pos ha hb
    have hf : fixeps * (roeOf G a b n).c ≤ (roeOf G a b n).vn - (roeOf G a b n).c := hf
    have hfc := mul_pos hfe hc
    have hℓ : ∀ A : Avg, eigLin (roeOf G a b n) A = ![A.vn - A.c, A.vn, A.vn, A.vn + A.c] := by
      set r := roeOf G a b n with hr
      have hh : ∀ l : ℝ, fixeps * r.c ≤ l → harten (fixeps * r.c) |l| = l ∧ ¬ |l| < fixeps * r.c ∧ sgn l = 1 := by
        intro l hl'
        have : 0 ≤ l := by linarith
        exact ⟨by rw [abs_of_nonneg this, harten, if_neg (not_lt.mpr hl')], by rw [abs_of_nonneg this]; exact not_lt.mpr hl', by rw [sgn, if_pos this]⟩
      have h1 := hh (r.vn - r.c) hf
      have h2 := hh r.vn (by linarith)
      have h3 := hh (r.vn + r.c) (by linarith)
      intro A
      funext k
      fin_cases k
      · simp only [eigLin, eigV, eigC, roeL, roeL0]
        simp [h1.1, h1.2.1, h1.2.2]
      · simp only [eigLin, eigV, eigC, roeL, roeL0]
        simp [h2.1, h2.2.1, h2.2.2]
      · simp only [eigLin, eigV, eigC, roeL, roeL0]
        simp [h2.1, h2.2.1, h2.2.2]
      · simp only [eigLin, eigV, eigC, roeL, roeL0]
        simp [h3.1, h3.2.1, h3.2.2]
        ring
    have hF : ∀ x y, Adm G x → Adm G y → roeWith (eigLin (roeOf G a b n)) G n x y = G.eulerFlux x n := fun x y hx hy => by
      have hp := roe_property hx hy n
      simp only at hp
      funext i
      unfold roeWith
      rw [hℓ, hp i, eulerFlux_eq hx.rho', eulerFlux_eq hy.rho']
      ring
    exact up_of_exact ha (roeWith_jac ha hb n) (ha.eventually.mono fun x hx => hF x b hx hb) (hb.eventually.mono fun y hy => hF a y ha hy)
  · have hc : 0 < (roeOf G a b n).c := roe_c_pos ha hb
    have hf : fixeps * (roeOf G a b n).c ≤ (roeOf G a b n).vn - (roeOf G a b n).c := hf
    have hfc := mul_pos hfe hc
    exact C83_roe_partial ha hb n (by linarith) (by linarith) (by linarith)

end

/-! ### The system matrix -/

section
variable {D : Disc} {U : ℕ → Prop} {u w : ℕ → St} {s : Scheme} {J : St → St → V2 → FJ}

theorem blkInterior_inviscid (hv : D.viscous = false) (k : ℕ) (a b : St) : D.blkInterior J k a b =
    ⟨fun p q => (J a b (D.G.nrm k)).dfdl p q * D.G.len k, fun p q => (J a b (D.G.nrm k)).dfdr p q * D.G.len k⟩ := by
  unfold Disc.blkInterior
  simp only [hv, Bool.false_eq_true, if_false, add_zero]

/-- C98, the Jacobian matrix: the rows of the set are determined by the states in the set and have no entries outside. -/
theorem C98_rows (h : D.G.Ok) (hv : D.viscous = false) (hJ : UpJac s D.gas J) (hu : ∀ i, i < D.G.rows → Adm D.gas (u i)) (hw : ∀ i, i < D.G.rows → Adm D.gas (w i))
    (he : ∀ i, U i → u i = w i) (hlu : Leaves { D with scheme := s } U u) (hlw : Leaves { D with scheme := s } U w) {i : ℕ} (hU : U i) (q : ℕ) :
    D.jacSum J (oneCol D.G.m) u (i, q) = D.jacSum J (oneCol D.G.m) w (i, q) ∧ (¬ U q → D.jacSum J (oneCol D.G.m) u (i, q) = 0) := by
  have hcol : ∀ x y, oneCol D.G.m x = some y → x = y := fun x y e => by
    by_cases hx : x < D.G.m.nelem
    · rw [oneCol_row hx] at e
      exact Option.some.inj e
    · simp [oneCol, numbering, hx] at e
  have key : ∀ k, k < D.G.nface →
      amtAt (i, q) (jacUpds D.G (oneCol D.G.m) (fun k => D.blkBoundary J (D.bjac k) k (u (D.G.face k).left))
        (fun k => (D.blkInterior J k (u (D.G.face k).left) (u (D.G.face k).right)).dfdl) (fun k => (D.blkInterior J k (u (D.G.face k).left) (u (D.G.face k).right)).dfdr) k) =
      amtAt (i, q) (jacUpds D.G (oneCol D.G.m) (fun k => D.blkBoundary J (D.bjac k) k (w (D.G.face k).left))
        (fun k => (D.blkInterior J k (w (D.G.face k).left) (w (D.G.face k).right)).dfdl) (fun k => (D.blkInterior J k (w (D.G.face k).left) (w (D.G.face k).right)).dfdr) k) ∧
      (¬ U q → amtAt (i, q) (jacUpds D.G (oneCol D.G.m) (fun k => D.blkBoundary J (D.bjac k) k (u (D.G.face k).left))
        (fun k => (D.blkInterior J k (u (D.G.face k).left) (u (D.G.face k).right)).dfdl) (fun k => (D.blkInterior J k (u (D.G.face k).left) (u (D.G.face k).right)).dfdr) k) = 0) := by
    intro k hk
    obtain ⟨k1, k2, k3, k4, k5⟩ := h.kind hk
    have hLr : (D.G.face k).left < D.G.rows := by unfold Geo.rows; omega
    unfold jacUpds
    dsimp only
    by_cases hbd : k < D.G.m.nbface
    · simp only [if_pos hbd, amtAt_ent]
      by_cases hc : oneCol D.G.m (D.G.face k).left = some i ∧ oneCol D.G.m (D.G.face k).left = some q
      · have e1 := hcol _ _ hc.1
        have e2 := hcol _ _ hc.2
        have : U (D.G.face k).left := by rw [e1]; exact hU
        refine ⟨by simp only [if_pos hc, he _ this], fun hq => absurd (by rw [← e2]; exact this) hq⟩
      · simp only [if_neg hc, implies_true, and_self]
    · have hn : D.G.m.nbface ≤ k := by omega
      have hRr := k5 hn
      have hun := nrm_unit h hk
      have nL : ¬ U (D.G.face k).left → oneCol D.G.m (D.G.face k).left ≠ some i := fun hx e => hx (by rw [hcol _ _ e]; exact hU)
      have nR : ¬ U (D.G.face k).right → oneCol D.G.m (D.G.face k).right ≠ some i := fun hx e => hx (by rw [hcol _ _ e]; exact hU)
      have qL : U (D.G.face k).left → ¬ U q → oneCol D.G.m (D.G.face k).left ≠ some q := fun hx hq e => hq (by rw [← hcol _ _ e]; exact hx)
      have qR : U (D.G.face k).right → ¬ U q → oneCol D.G.m (D.G.face k).right ≠ some q := fun hx hq e => hq (by rw [← hcol _ _ e]; exact hx)
      simp only [if_neg hbd, blkInterior_inviscid hv]
      by_cases hUl : U (D.G.face k).left
      · by_cases hUr : U (D.G.face k).right
        · refine ⟨by simp only [he _ hUl, he _ hUr], fun hq => ?_⟩
          split_ifs <;> simp only [amtAt_append, amtAt_ent, qL hUl hq, qR hUr hq, and_false, if_false, add_zero]
        · rw [(hJ _ _ _ (hu _ hLr) (hu _ hRr) hun).1 ((hlu k hk hn).1 hUl hUr), (hJ _ _ _ (hw _ hLr) (hw _ hRr) hun).1 ((hlw k hk hn).1 hUl hUr), he _ hUl]
          have hz : (fun p q => (0 : Fin 4 → St) p q * D.G.len k) = (0 : Blk (Fin 4)) := by funext p q; simp
          refine ⟨rfl, fun hq => ?_⟩
          simp only [hz]
          split_ifs <;> simp [amtAt_append, amtAt_ent, qL hUl hq, nR hUr]
      · by_cases hUr : U (D.G.face k).right
        · rw [(hJ _ _ _ (hu _ hLr) (hu _ hRr) hun).2 ((hlu k hk hn).2 hUr hUl), (hJ _ _ _ (hw _ hLr) (hw _ hRr) hun).2 ((hlw k hk hn).2 hUr hUl), he _ hUr]
          have hz : (fun p q => (0 : Fin 4 → St) p q * D.G.len k) = (0 : Blk (Fin 4)) := by funext p q; simp
          refine ⟨rfl, fun hq => ?_⟩
          simp only [hz]
          split_ifs <;> simp [amtAt_append, amtAt_ent, qR hUr hq, nL hUl]
        · split_ifs <;> simp [amtAt_append, amtAt_ent, nR hUr, nL hUl]
  unfold Disc.jacSum
  exact ⟨sum_congr rfl fun k hk => (key k (mem_range.1 hk)).1, fun hq => sum_eq_zero fun k hk => (key k (mem_range.1 hk)).2 hq⟩

/-- C98, the system matrix with the pseudo-time term. -/
theorem C98_matrix (h : D.G.Ok) (hv : D.viscous = false) (hJ : UpJac s D.gas J) (hu : ∀ i, i < D.G.rows → Adm D.gas (u i)) (hw : ∀ i, i < D.G.rows → Adm D.gas (w i))
    (he : ∀ i, U i → u i = w i) (hlu : Leaves { D with scheme := s } U u) (hlw : Leaves { D with scheme := s } U w) {o o' : Disc.Out}
    (ho : ∀ i, i < D.G.m.nelem → U i → D.timestep o.uL o.uR i = D.timestep o'.uL o'.uR i) (cfl : ℝ) {i : ℕ} (hU : U i) (q : ℕ) :
    sysOne D J u o cfl (i, q) = sysOne D J w o' cfl (i, q) ∧ (¬ U q → sysOne D J u o cfl (i, q) = 0) := by
  obtain ⟨h1, h2⟩ := C98_rows h hv hJ hu hw he hlu hlw hU q
  unfold sysOne sysPart
  refine ⟨?_, fun hq => ?_⟩
  · rw [h1]
    congr 1
    refine sum_congr rfl fun l hl => ?_
    rw [amtAt_pseudo, amtAt_pseudo]
    split_ifs with e
    · have : l = i := (Prod.mk.inj e).1
      rw [pseudoDt, pseudoDt, this, ho i (this ▸ mem_range.1 hl) hU]
    · rfl
  · rw [h2 hq, zero_add]
    refine sum_eq_zero fun l hl => ?_
    rw [amtAt_pseudo, if_neg]
    rintro e
    exact hq (by rw [← (Prod.mk.inj e).2, (Prod.mk.inj e).1]; exact hU)

/-- Solutions of a regular system agree on a set of rows if the right-hand sides do and the rows have no entries outside the set. -/
theorem Regular.unique_on {N : ℕ} {A : ℕ × ℕ → Blk (Fin 4)} (h : Regular N A) (hz : ∀ i q, i < N → q < N → U i → ¬ U q → A (i, q) = 0) {x y : ℕ → St}
    (e : ∀ i, i < N → U i → mulRow N A x i = mulRow N A y i) {i : ℕ} (hi : i < N) (hU : U i) : x i = y i := by
  classical
  let ext : ({q : Fin N // U q} → St) → ℕ → St := fun z q => if hq : q < N then if hu : U q then z ⟨⟨q, hq⟩, hu⟩ else 0 else 0
  have hext : ∀ (z : {q : Fin N // U q} → St) (q : ℕ) (hq : q < N) (hu : U q), ext z q = z ⟨⟨q, hq⟩, hu⟩ := fun z q hq hu => by
    simp only [ext, dif_pos hq, dif_pos hu]
  have hres : ∀ (z : ℕ → St) (q : ℕ), q < N → U q → ext (fun p => z p.1) q = z q := fun z q hq hu => by
    simp only [ext, dif_pos hq, dif_pos hu]
  have hrow : ∀ {x y : ℕ → St}, (∀ q, q < N → U q → x q = y q) → ∀ i, i < N → U i → mulRow N A x i = mulRow N A y i := fun {x y} hxy i hi hu => by
    funext v
    refine sum_congr rfl fun q hq => sum_congr rfl fun c _ => ?_
    by_cases hq' : U q
    · rw [hxy q (mem_range.1 hq) hq']
    · rw [hz i q hi (mem_range.1 hq) hu hq']; simp
  let f : ({q : Fin N // U q} → St) →ₗ[ℝ] ({q : Fin N // U q} → St) :=
    { toFun := fun z i => mulRow N A (ext z) i.1
      map_add' := fun z z' => by
        funext i v
        simp only [mulRow, Pi.add_apply, ← Finset.sum_add_distrib]
        refine sum_congr rfl fun q hq => sum_congr rfl fun c _ => ?_
        simp only [ext, dif_pos (mem_range.1 hq)]
        split_ifs
        · rw [Pi.add_apply, Pi.add_apply, mul_add]
        · simp
      map_smul' := fun a z => by
        funext i v
        simp only [mulRow, Pi.smul_apply, smul_eq_mul, RingHom.id_apply, Finset.mul_sum]
        refine sum_congr rfl fun q hq => sum_congr rfl fun c _ => ?_
        simp only [ext, dif_pos (mem_range.1 hq)]
        split_ifs
        · rw [Pi.smul_apply, Pi.smul_apply, smul_eq_mul]; ring
        · simp }
  have hf : ∀ z i, f z i = mulRow N A (ext z) i.1 := fun _ _ => rfl
  have hsurj : Function.Surjective f := fun b => by
    obtain ⟨z, hz'⟩ := h.solvable (ext b)
    refine ⟨fun q => z q.1, funext fun q => ?_⟩
    rw [hf, hrow (y := z) (hres _) q.1 q.1.2 q.2, hz' q.1 q.1.2, hext b q.1 q.1.2 q.2]
  have hinj := LinearMap.injective_iff_surjective.2 hsurj
  have := @hinj (fun q => x q.1) (fun q => y q.1) (funext fun q => by
    rw [hf, hf, hrow (y := x) (hres _) q.1 q.1.2 q.2, hrow (x := ext fun q => y q.1) (y := y) (hres _) q.1 q.1.2 q.2]
    exact e q.1 q.1.2 q.2)
  exact congrFun this ⟨⟨i, hi⟩, hU⟩

/-! ### The implicit solver -/

variable {relax : St → St → ℝ} {ksp : (ℕ × ℕ → Blk (Fin 4)) → (ℕ → St) → ℕ → St}

/-- C98, one iteration of the implicit solver with exact linear solves: the new states in the set are determined by the old states in the set. The flux of the Jacobian may be
that of another scheme `s`, as the code allows. -/
theorem C98_implicit_update (h : D.G.Ok) (hg : 4 ≤ 3 * D.gas.g) (hv : D.viscous = false) (hb : D.BcOk) (hJ : UpJac s D.gas J) (hk : Exact D.G.m.nelem ksp)
    (hu : ∀ i, i < D.G.rows → Adm D.gas (u i)) (hw : ∀ i, i < D.G.rows → Adm D.gas (w i)) (he : ∀ i, U i → u i = w i) (hlu : Leaves D U u) (hlw : Leaves D U w)
    (hju : Leaves { D with scheme := s } U u) (hjw : Leaves { D with scheme := s } U w) {cfl : ℝ}
    (hru : ∀ o, D.residual1 u 0 = some o → Regular D.G.m.nelem (sysOne D J u o cfl)) (hrw : ∀ o, D.residual1 w 0 = some o → Regular D.G.m.nelem (sysOne D J w o cfl))
    {i : ℕ} (hU : U i) : (implicit D J relax ksp).upd cfl u i = (implicit D J relax ksp).upd cfl w i := by
  obtain ⟨o, o', ho, ho', hr⟩ := C98_residual h hg hv hb hu hw he hlu hlw 0
  have hA := fun {i : ℕ} (hU : U i) q => C98_matrix h hv hJ hu hw he hju hjw (o := o) (o' := o') (fun i hi hU => (hr i hi hU).2) cfl hU q
  simp only [implicit, ho, ho', relaxed]
  split_ifs with hi
  · have hd : ksp (sysOne D J u o cfl) o.res i = ksp (sysOne D J w o' cfl) o'.res i := by
      refine Regular.unique_on (hru o ho) (fun i q _ _ hU hq => (hA hU q).2 hq) (fun i hi hU => ?_) hi hU
      rw [hk _ _ (hru o ho) i hi, (hr i hi hU).1, ← hk _ o'.res (hrw o' ho') i hi]
      exact mulRow_congr (fun q _ => (hA hU q).1.symm) fun _ _ => rfl
    rw [hd, he i hU]
  · exact he i hU

/-- C98, runs of the implicit solver with a constant CFL number. (A ramp follows the norm of the residual over all cells, so that it carries information everywhere.) -/
theorem C98_implicit_run (h : D.G.Ok) (hg : 4 ≤ 3 * D.gas.g) (hv : D.viscous = false) (hb : D.BcOk) (hJ : UpJac s D.gas J) (hk : Exact D.G.m.nelem ksp) {cf : Conf}
    (hc : cf.cflinit = cf.cflfin) (he : ∀ i, U i → u i = w i) (n : ℕ) {a b : Mem (ℕ → St)}
    (ha : traj backwardEuler (implicit D J relax ksp) cf u n = some a) (hb' : traj backwardEuler (implicit D J relax ksp) cf w n = some b)
    (hl : ∀ z, z = u ∨ z = w → ∀ j, j < n → ∀ x, traj backwardEuler (implicit D J relax ksp) cf z j = some x → Leaves D U x.u ∧ Leaves { D with scheme := s } U x.u ∧
      (∀ i, i < D.G.rows → Adm D.gas (x.u i)) ∧ ∀ o, D.residual1 x.u 0 = some o → Regular D.G.m.nelem (sysOne D J x.u o cf.cflinit)) :
    ∀ i, U i → a.u i = b.u i := by
  induction n generalizing a b with
  | zero =>
    cases ha; cases hb'
    exact he
  | succ n ih =>
    obtain ⟨s0, hs0, hs1⟩ := Option.bind_eq_some_iff.1 ha
    obtain ⟨t0, ht0, ht1⟩ := Option.bind_eq_some_iff.1 hb'
    have ih := ih hs0 ht0 (fun z hz j hj => hl z hz j (by omega))
    obtain ⟨l1, l2, l3, l4⟩ := hl u (.inl rfl) n (by omega) _ hs0
    obtain ⟨m1, m2, m3, m4⟩ := hl w (.inr rfl) n (by omega) _ ht0
    have hramp : ∀ x y z p q : ℝ, expRamp x x y z p q = x := fun x y z p q => by
      unfold expRamp
      dsimp only
      generalize (if z > 1 then y * z ^ p else y * z ^ q) = t
      split_ifs with h1 h2
      · rfl
      · rfl
      · linarith
    have e : ∀ {x y : Mem (ℕ → St)}, body backwardEuler (implicit D J relax ksp) cf x = some y → y.u = (implicit D J relax ksp).upd cf.cflinit x.u := fun {x y} hxy => by
      unfold body at hxy
      dsimp only at hxy
      split at hxy
      · cases hxy
      · cases hxy
        dsimp only [backwardEuler]
        rw [← hc, hramp]
    intro i hU
    rw [e hs1, e ht1]
    exact C98_implicit_update h hg hv hb hJ hk l3 m3 ih l1 m1 l2 m2 l4 m4 hU

end

/-! ### Cases -/

theorem two_adm {a b : St} (ha : Adm air a) (hb : Adm air b) (i : ℕ) : Adm air (two a b i) := by
  unfold two; split_ifs
  · exact ha
  · exact hb

theorem two_regular {s : FState} (hs : topological pair = .ok s) {sch : Scheme} {a b : St} (ha : Adm air a) (hb : Adm air b) (J : St → St → V2 → FJ) :
    ∃ c0, 0 < c0 ∧ ∀ cfl, 0 < cfl → cfl ≤ c0 → ∀ o, ((airOut sch).disc pair s 0).residual1 (two a b) 0 = some o →
      Regular 2 (sysOne ((airOut sch).disc pair s 0) J (two a b) o cfl) :=
  regular_small (D := (airOut sch).disc pair s 0) ⟨pair_conforming, pair_nozero, hs⟩ ⟨by norm_num [airOut, Settings.disc, air], by norm_num [airOut, Settings.disc, air],
    by norm_num [airOut, Settings.disc, air], by norm_num [airOut, Settings.disc, air]⟩ (fun _ _ => rfl) (fun i _ => two_adm ha hb i)
    (fun i hi => by show 0 < (area pair i).getD 0; rw [pair_area hi]; norm_num) J

/-- Two squares; air at Mach 4 in the first flows into the second. Residuals from any scheme but LLF, the matrix from the HLLC Jacobian, small CFL numbers: replacing the state of
the second square, Mach 5 for Mach 4, leaves the implicit update of the first as it is. -/
example (sch : Scheme) (hsch : sch ≠ .llf) : ∃ s, topological pair = .ok s ∧ ∃ c0, 0 < c0 ∧ ∀ cfl, 0 < cfl → cfl ≤ c0 → ∀ relax ksp, Exact 2 ksp →
    (implicit ((airOut sch).disc pair s 0) (hllcJac air) relax ksp).upd cfl (two uS4 uS5) 0 = (implicit ((airOut sch).disc pair s 0) (hllcJac air) relax ksp).upd cfl (two uS4 uS4) 0 := by
  obtain ⟨s, hs, hf⟩ := pair_topological
  obtain ⟨f5, f4⟩ := faster_uS hsch
  obtain ⟨g5, g4⟩ := faster_uS (sch := .hllc) (by simp)
  obtain ⟨c1, p1, r1⟩ := two_regular hs (sch := sch) adm_uS4 adm_uS5 (hllcJac air)
  obtain ⟨c2, p2, r2⟩ := two_regular hs (sch := sch) adm_uS4 adm_uS4 (hllcJac air)
  refine ⟨s, hs, min c1 c2, lt_min p1 p2, fun cfl h0 hc relax ksp hk => ?_⟩
  exact C98_implicit_update (D := (airOut sch).disc pair s 0) (U := (· = 0)) (s := .hllc) ⟨pair_conforming, pair_nozero, hs⟩ (by norm_num [Settings.disc, airOut, air]) rfl (fun _ _ => rfl)
    (C98_jacobian_hllc (by norm_num [Settings.disc, airOut, air])) hk (fun i _ => two_adm adm_uS4 adm_uS5 i) (fun i _ => two_adm adm_uS4 adm_uS4 i)
    (fun i hi => by have : i = 0 := hi
                    rw [this]; rfl) (pair_leaves hf f5) (pair_leaves hf f4) (pair_leaves (sch := .hllc) hf g5) (pair_leaves (sch := .hllc) hf g4)
    (r1 cfl h0 (hc.trans (min_le_left _ _))) (r2 cfl h0 (hc.trans (min_le_right _ _))) rfl

/-- Blocks of a face passed from Mach 4 to Mach 5, in both orders of its sides. -/
example : (∀ J, J = hllJac air ∨ J = hllcJac air ∨ J = ausmJac air ∨ J = roeJac air → (J uS4 uS5 ![1, 0]).dfdr = 0 ∧ (J uS5 uS4 (-![1, 0])).dfdl = 0) := by
  have key : ∀ {s J}, s ≠ .llf → UpJac s air J → (J uS4 uS5 ![1, 0]).dfdr = 0 ∧ (J uS5 uS4 (-![1, 0])).dfdl = 0 := fun {s J} hs hJ => by
    refine ⟨by rw [(hJ _ _ _ adm_uS4 adm_uS5 (by norm_num)).1 (faster_uS hs).1], ?_⟩
    rw [(hJ _ _ _ adm_uS5 adm_uS4 (by norm_num)).2 (by rw [neg_neg]; exact (faster_uS hs).1)]
  rintro J (rfl | rfl | rfl | rfl)
  · exact key (s := .hll) (by simp) C98_jacobian_hll
  · exact key (s := .hllc) (by simp) (C98_jacobian_hllc (by norm_num [air]))
  · exact key (s := .ausm) (by simp) C98_jacobian_ausm
  · exact key (s := .roe) (by simp) C98_jacobian_roe

/-- The block of the first square's row in the second square's column is empty. -/
example : ∃ s, topological pair = .ok s ∧ ((airOut .roe).disc pair s 0).jacSum (roeJac air) (oneCol pair) (two uS4 uS5) (0, 1) = 0 := by
  obtain ⟨s, hs, hf⟩ := pair_topological
  obtain ⟨f5, f4⟩ := faster_uS (sch := .roe) (by simp)
  exact ⟨s, hs, (C98_rows (D := (airOut .roe).disc pair s 0) (U := (· = 0)) (s := .roe) ⟨pair_conforming, pair_nozero, hs⟩ rfl C98_jacobian_roe (fun i _ => two_adm adm_uS4 adm_uS5 i)
    (fun i _ => two_adm adm_uS4 adm_uS5 i) (fun i _ => rfl) (pair_leaves hf f5) (pair_leaves hf f5) (i := 0) rfl 1).2 (by simp)⟩

/-- So is the block of the system matrix, whatever the time steps. -/
example : ∃ s, topological pair = .ok s ∧ ∀ o cfl, sysOne ((airOut .roe).disc pair s 0) (roeJac air) (two uS4 uS5) o cfl (0, 1) = 0 := by
  obtain ⟨s, hs, hf⟩ := pair_topological
  obtain ⟨f5, f4⟩ := faster_uS (sch := .roe) (by simp)
  exact ⟨s, hs, fun o cfl => (C98_matrix (D := (airOut .roe).disc pair s 0) (U := (· = 0)) (s := .roe) (o' := o) ⟨pair_conforming, pair_nozero, hs⟩ rfl C98_jacobian_roe
    (fun i _ => two_adm adm_uS4 adm_uS5 i) (fun i _ => two_adm adm_uS4 adm_uS5 i) (fun i _ => rfl) (pair_leaves hf f5) (pair_leaves hf f5) (fun _ _ _ => rfl) cfl (i := 0) rfl 1).2 (by simp)⟩

/-- One iteration of both runs from Mach 4 in the first square; a second iteration is covered as long as the first leaves the stream supersonic. -/
example : ∃ s, topological pair = .ok s ∧ ∃ c0 : ℝ, 0 < c0 ∧ ∀ cf : Conf, 0 < cf.cflinit → cf.cflinit ≤ c0 → cf.cflinit = cf.cflfin → ∀ relax ksp, Exact 2 ksp →
    ∃ a b, traj backwardEuler (implicit ((airOut .ausm).disc pair s 0) (ausmJac air) relax ksp) cf (two uS4 uS5) 1 = some a ∧
      traj backwardEuler (implicit ((airOut .ausm).disc pair s 0) (ausmJac air) relax ksp) cf (two uS4 uS4) 1 = some b ∧ a.u 0 = b.u 0 := by
  obtain ⟨s, hs, hf⟩ := pair_topological
  obtain ⟨f5, f4⟩ := faster_uS (sch := .ausm) (by simp)
  obtain ⟨c1, p1, r1⟩ := two_regular hs (sch := .ausm) adm_uS4 adm_uS5 (ausmJac air)
  obtain ⟨c2, p2, r2⟩ := two_regular hs (sch := .ausm) adm_uS4 adm_uS4 (ausmJac air)
  refine ⟨s, hs, min c1 c2, lt_min p1 p2, fun cf h0 hc hcc relax ksp hk => ?_⟩
  have hJ : ((airOut .ausm).disc pair s 0).BcJOk := fun _ _ => ⟨_, rfl, rfl⟩
  have hn : ∀ z, ∃ r, (implicit ((airOut .ausm).disc pair s 0) (ausmJac air) relax ksp).norm z = some r := fun z => by
    simp only [implicit, if_pos hJ]
    have hb : ((airOut .ausm).disc pair s 0).BcOk := fun _ _ => rfl
    obtain ⟨o, ho⟩ : ∃ o, ((airOut .ausm).disc pair s 0).residual1 z 0 = some o := ⟨_, by unfold Disc.residual1; rw [if_pos hb]⟩
    have hnn : 0 ≤ energy ((airOut .ausm).disc pair s 0) o.res := Finset.sum_nonneg fun i hi => mul_nonneg (mul_self_nonneg _) (by
      show 0 ≤ (area pair i).getD 0
      rw [pair_area (mem_range.1 hi)]; norm_num)
    exact ⟨Real.sqrt (energy ((airOut .ausm).disc pair s 0) o.res), by simp only [single, ho, Option.bind_some, rootOf, if_pos hnn]⟩
  have ht : ∀ z, ∃ a, traj backwardEuler (implicit ((airOut .ausm).disc pair s 0) (ausmJac air) relax ksp) cf z 1 = some a := fun z => by
    obtain ⟨r, hr⟩ := hn z
    have : (traj backwardEuler (implicit ((airOut .ausm).disc pair s 0) (ausmJac air) relax ksp) cf z 1).isSome := by
      simp only [traj, Option.bind_some, body, init, hr, Option.isSome_some]
    exact Option.isSome_iff_exists.1 this
  obtain ⟨a, ha⟩ := ht (two uS4 uS5)
  obtain ⟨b, hb⟩ := ht (two uS4 uS4)
  refine ⟨a, b, ha, hb, C98_implicit_run (D := (airOut .ausm).disc pair s 0) (U := (· = 0)) (s := .ausm) ⟨pair_conforming, pair_nozero, hs⟩ (by norm_num [Settings.disc, airOut, air]) rfl
    (fun _ _ => rfl) C98_jacobian_ausm hk hcc (fun i hi => by have : i = 0 := hi
                                                              rw [this]; rfl) 1 ha hb (fun z hz j hj x hx => ?_) 0 rfl⟩
  obtain rfl : j = 0 := by omega
  cases hx
  rcases hz with rfl | rfl
  · exact ⟨pair_leaves hf f5, pair_leaves (sch := .ausm) hf f5, fun i _ => two_adm adm_uS4 adm_uS5 i, r1 _ h0 (hc.trans (min_le_left _ _))⟩
  · exact ⟨pair_leaves hf f4, pair_leaves (sch := .ausm) hf f4, fun i _ => two_adm adm_uS4 adm_uS4 i, r2 _ h0 (hc.trans (min_le_right _ _))⟩

end Par
end FVENS
