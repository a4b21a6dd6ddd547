import Verif.FV.Grad

/-!
# Reconstruction of face values (C46–C49)

`areconstruction.cpp`, `limitedlinearreconstruction.cpp`, `musclreconstruction.cpp` for one variable (the loops over variables are
independent). `u` are cell values in rows `0 … rows-1`, `rows = nelem + nconnface` (the matrix `up` allocated at
src/spatial/flow_spatial.cpp:682); reading another row is undefined behaviour (`none`). `g` are cell gradients, with the
same rows.
-/

namespace FVENS
namespace FV

open Msh Finset

/-- Checked read of a row. -/
def rd {α : Type*} (rows : ℕ) (a : ℕ → α) (i : ℕ) : Option α := if i < rows then some (a i) else none

/-- `linearExtrapolate`, src/spatial/reconstruction_utils.hpp:17-32. -/
def linExt (uc : ℝ) (g : Fin 2 → ℝ) (lim : ℝ) (gp rc : Fin 2 → ℝ) : ℝ :=
  (uc + lim * g 0 * (gp 0 - rc 0)) + lim * g 1 * (gp 1 - rc 1)

/-- `gradientMagnitude2`, src/spatial/reconstruction_utils.hpp:38-45. -/
def gradMag2 (g : Fin 2 → ℝ) : ℝ := (0 + g 0 * g 0) + g 1 * g 1

/-! ### Limiter functions of one cell -/

/-- Range of differences to the neighbours, src/spatial/limitedlinearreconstruction.cpp:133-140 and 223-230. -/
noncomputable def duRange (rows : ℕ) (u : ℕ → ℝ) (i : ℕ) (nb : List ℕ) : Option (ℝ × ℝ) :=
  nb.foldl (fun o j => o.bind fun p => (rd rows u j).bind fun uj => (rd rows u i).bind fun ui =>
    let dui := uj - ui
    let mx := if dui > p.2 then dui else p.2
    let mn := if dui < p.1 then dui else p.1
    some (mn, mx)) (some (0, 0))

/-- Barth–Jespersen limiter from the unlimited face differences `uface - u(iel)`,
src/spatial/limitedlinearreconstruction.cpp:142-161. -/
noncomputable def bjLim (mn mx : ℝ) (diffs : List ℝ) : ℝ :=
  diffs.foldl (fun lim diff =>
    let phi := if diff > 0 then (if 1 < mx / diff then 1 else mx / diff)
      else if diff < 0 then (if 1 < mn / diff then 1 else mn / diff) else 1
    if phi < lim then phi else lim) 1

/-- Venkatakrishnan limiter, src/spatial/limitedlinearreconstruction.cpp:232-250. With a vanishing denominator the code gets NaN, for
which the comparison is false. -/
noncomputable def venkLim (eps2 mn mx : ℝ) (diffs : List ℝ) : ℝ :=
  diffs.foldl (fun lim dm =>
    let dp := if dm < 0 then mn else mx
    let den := dp * dp + dp * dm + 2 * dm * dm + eps2
    let phi := (dp * dp + 2 * dp * dm + eps2) / den
    if den ≠ 0 ∧ phi < lim then phi else lim) 1

/-- Van Albada limiter, src/spatial/musclreconstruction.cpp:87-92. -/
noncomputable def vanAlbada (a b : ℝ) : ℝ :=
  let phi := (2 * a * b + 1e-8) / (a * a + b * b + 1e-8)
  if phi < 0 then 0 else phi

/-- WENO weighted gradient, src/spatial/limitedlinearreconstruction.cpp:57-88 (`pow(x, gamma)` with gamma = 4). -/
noncomputable def wenoGrad (lam : ℝ) (rows : ℕ) (g : ℕ → Fin 2 → ℝ) (i : ℕ) (nb : List ℕ) : Option (Fin 2 → ℝ) :=
  let addW : ℝ → (Fin 2 → ℝ) → ℝ × (Fin 2 → ℝ) → ℝ × (Fin 2 → ℝ) := fun c gj s =>
    let w := c / (gradMag2 gj + 1e-5) ^ 4
    (s.1 + w, fun d => s.2 d + w * gj d)
  let start := (rd rows g i).map fun gi => addW lam gi (0, fun _ => 0)
  let fin := nb.foldl (fun o j => o.bind fun s => if j ≥ rows then some s else (rd rows g j).map fun gj => addW 1 gj s) start
  fin.map fun s => fun d => s.2 d / s.1

/-! ### Properties of the limiter functions -/

theorem duRange_spec {rows : ℕ} {u : ℕ → ℝ} {i : ℕ} {nb : List ℕ} {p : ℝ × ℝ} (h : duRange rows u i nb = some p) :
    p.1 ≤ 0 ∧ 0 ≤ p.2 ∧ (∀ j ∈ nb, j < rows ∧ p.1 ≤ u j - u i ∧ u j - u i ≤ p.2) ∧
    (p.1 = 0 ∨ ∃ j ∈ nb, p.1 = u j - u i) ∧ (p.2 = 0 ∨ ∃ j ∈ nb, p.2 = u j - u i) := by
  unfold duRange at h
  induction nb using List.reverseRecOn generalizing p with
  | nil => simp at h; subst h; simp
  | append_singleton nb j ih =>
    rw [List.foldl_append, List.foldl_cons, List.foldl_nil, Option.bind_eq_some_iff] at h
    obtain ⟨q, hq, h⟩ := h
    obtain ⟨h1, h2, h3, h4, h5⟩ := ih hq
    rw [Option.bind_eq_some_iff] at h
    obtain ⟨uj, hj, h⟩ := h
    rw [Option.bind_eq_some_iff] at h
    obtain ⟨ui, hi, h⟩ := h
    unfold rd at hj hi
    split_ifs at hj hi with hjr hir
    obtain rfl := Option.some.inj hj
    obtain rfl := Option.some.inj hi
    obtain rfl := Option.some.inj h
    have m1 : ∀ a b : ℝ, (if a < b then a else b) = min a b := fun a b => by
      split_ifs with hh
      · exact (min_eq_left hh.le).symm
      · exact (min_eq_right (not_lt.1 hh)).symm
    have m2 : ∀ a b : ℝ, (if a > b then a else b) = max a b := fun a b => by
      split_ifs with hh
      · exact (max_eq_left (le_of_lt hh)).symm
      · exact (max_eq_right (not_lt.1 hh)).symm
    simp only [m1, m2]
    refine ⟨(min_le_right _ _).trans h1, h2.trans (le_max_right _ _), fun x hx => ?_, ?_, ?_⟩
    · rcases List.mem_append.1 hx with hx | hx
      · obtain ⟨a, b, c⟩ := h3 x hx
        exact ⟨a, (min_le_right _ _).trans b, c.trans (le_max_right _ _)⟩
      · rw [List.mem_singleton] at hx; subst hx
        exact ⟨hjr, min_le_left _ _, le_max_left _ _⟩
    · rcases min_choice (u j - u i) q.1 with e | e
      · exact Or.inr ⟨j, by simp, e⟩
      · rw [e]
        rcases h4 with h4 | ⟨x, hx, h4⟩
        · exact Or.inl h4
        · exact Or.inr ⟨x, by simp [hx], h4⟩
    · rcases max_choice (u j - u i) q.2 with e | e
      · exact Or.inr ⟨j, by simp, e⟩
      · rw [e]
        rcases h5 with h5 | ⟨x, hx, h5⟩
        · exact Or.inl h5
        · exact Or.inr ⟨x, by simp [hx], h5⟩

/-- The limiters' neighbour loop reads existing rows exactly if all neighbours have a row. -/
theorem duRange_isSome_iff {rows : ℕ} {u : ℕ → ℝ} {i : ℕ} (hi : i < rows) {nb : List ℕ} :
    (duRange rows u i nb).isSome ↔ ∀ j ∈ nb, j < rows := by
  constructor
  · intro h j hj
    obtain ⟨p, hp⟩ := Option.isSome_iff_exists.1 h
    exact ((duRange_spec hp).2.2.1 j hj).1
  · intro h
    unfold duRange
    induction nb using List.reverseRecOn with
    | nil => rfl
    | append_singleton nb j ih =>
      rw [List.foldl_append, List.foldl_cons, List.foldl_nil]
      obtain ⟨p, hp⟩ := Option.isSome_iff_exists.1 (ih fun j hj => h j (by simp [hj]))
      rw [hp]
      simp [rd, hi, h j (by simp)]

/-- Barth–Jespersen: the limiter is in [0,1] and limited differences stay in the range. -/
theorem bjLim_spec {mn mx : ℝ} (h1 : mn ≤ 0) (h2 : 0 ≤ mx) (diffs : List ℝ) :
    0 ≤ bjLim mn mx diffs ∧ bjLim mn mx diffs ≤ 1 ∧ ∀ d ∈ diffs, mn ≤ bjLim mn mx diffs * d ∧ bjLim mn mx diffs * d ≤ mx := by
  unfold bjLim
  induction diffs using List.reverseRecOn with
  | nil => simp
  | append_singleton ds d ih =>
    rw [List.foldl_append, List.foldl_cons, List.foldl_nil]
    generalize List.foldl _ (1 : ℝ) ds = l at ih ⊢
    obtain ⟨i1, i2, i3⟩ := ih
    simp only
    set phi : ℝ := if d > 0 then (if 1 < mx / d then 1 else mx / d) else if d < 0 then (if 1 < mn / d then 1 else mn / d) else 1 with hphi
    have hp : 0 ≤ phi ∧ mn ≤ phi * d ∧ phi * d ≤ mx ∧ ∀ t, 0 ≤ t → t ≤ phi → mn ≤ t * d ∧ t * d ≤ mx := by
      rcases lt_trichotomy d 0 with hd | hd | hd
      · have e : phi = if 1 < mn / d then 1 else mn / d := by rw [hphi, if_neg (by linarith), if_pos hd]
        have hq : 0 ≤ mn / d := div_nonneg_of_nonpos h1 hd.le
        have hle : phi ≤ mn / d := by rw [e]; split_ifs with hh <;> linarith
        have h0 : 0 ≤ phi := by rw [e]; split_ifs with hh <;> linarith
        have key : ∀ t, 0 ≤ t → t ≤ phi → mn ≤ t * d ∧ t * d ≤ mx := fun t ht htp => by
          have : mn / d * d = mn := div_mul_cancel₀ mn hd.ne
          constructor
          · nlinarith
          · nlinarith
        exact ⟨h0, (key phi h0 le_rfl).1, (key phi h0 le_rfl).2, key⟩
      · have e : phi = 1 := by rw [hphi, if_neg (by linarith), if_neg (by linarith)]
        rw [e, hd]
        exact ⟨zero_le_one, by linarith, by linarith, fun t _ _ => ⟨by linarith, by linarith⟩⟩
      · have e : phi = if 1 < mx / d then 1 else mx / d := by rw [hphi, if_pos hd]
        have hq : 0 ≤ mx / d := div_nonneg h2 hd.le
        have hle : phi ≤ mx / d := by rw [e]; split_ifs with hh <;> linarith
        have h0 : 0 ≤ phi := by rw [e]; split_ifs with hh <;> linarith
        have key : ∀ t, 0 ≤ t → t ≤ phi → mn ≤ t * d ∧ t * d ≤ mx := fun t ht htp => by
          have : mx / d * d = mx := div_mul_cancel₀ mx hd.ne'
          constructor
          · nlinarith
          · nlinarith
        exact ⟨h0, (key phi h0 le_rfl).1, (key phi h0 le_rfl).2, key⟩
    obtain ⟨p1, p2, p3, p4⟩ := hp
    -- scaling down keeps the bounds
    have shrink : ∀ x t s, 0 ≤ t → t ≤ s → mn ≤ s * x ∧ s * x ≤ mx → mn ≤ t * x ∧ t * x ≤ mx := by
      intro x t s ht hts ⟨a, b⟩
      rcases le_total 0 x with hx | hx
      · exact ⟨by nlinarith, by nlinarith⟩
      · exact ⟨by nlinarith, by nlinarith⟩
    split_ifs with hlt
    · refine ⟨p1, by linarith, fun x hx => ?_⟩
      rcases List.mem_append.1 hx with hx | hx
      · exact shrink x phi l p1 hlt.le (i3 x hx)
      · rw [List.mem_singleton] at hx; subst hx; exact ⟨p2, p3⟩
    · refine ⟨i1, i2, fun x hx => ?_⟩
      rcases List.mem_append.1 hx with hx | hx
      · exact i3 x hx
      · rw [List.mem_singleton] at hx; subst hx; exact p4 l i1 (not_lt.1 hlt)

/-- C47: the Venkatakrishnan limiter lies in [0,1]. -/
theorem C47_venkatakrishnan {eps2 mn mx : ℝ} (he : 0 ≤ eps2) (h1 : mn ≤ 0) (h2 : 0 ≤ mx) (diffs : List ℝ) :
    0 ≤ venkLim eps2 mn mx diffs ∧ venkLim eps2 mn mx diffs ≤ 1 := by
  unfold venkLim
  induction diffs using List.reverseRecOn with
  | nil => simp
  | append_singleton ds d ih =>
    rw [List.foldl_append, List.foldl_cons, List.foldl_nil]
    simp only
    generalize List.foldl _ (1 : ℝ) ds = l at ih ⊢
    set dp : ℝ := if d < 0 then mn else mx with hdp
    have hs : 0 ≤ dp * d := by
      rw [hdp]; split_ifs with hd
      · exact mul_nonneg_of_nonpos_of_nonpos h1 hd.le
      · exact mul_nonneg h2 (not_lt.1 hd)
    split_ifs with hlt
    · refine ⟨div_nonneg ?_ ?_, hlt.2.le.trans ih.2⟩
      · nlinarith [mul_self_nonneg dp]
      · nlinarith [mul_self_nonneg dp, mul_self_nonneg d]
    · exact ih

/-- C47: with K = 0 (no smoothing term) the Venkatakrishnan limiter keeps the limited differences in the range of
neighbouring values. -/
theorem C47_venkatakrishnan_monotone {mn mx : ℝ} (h1 : mn ≤ 0) (h2 : 0 ≤ mx) (diffs : List ℝ) :
    ∀ d ∈ diffs, mn ≤ venkLim 0 mn mx diffs * d ∧ venkLim 0 mn mx diffs * d ≤ mx := by
  unfold venkLim
  have pos : ∀ ds : List ℝ, 0 ≤ venkLim 0 mn mx ds := fun ds => (C47_venkatakrishnan le_rfl h1 h2 ds).1
  induction diffs using List.reverseRecOn with
  | nil => simp
  | append_singleton ds d ih =>
    have hl : 0 ≤ venkLim 0 mn mx ds := pos ds
    unfold venkLim at hl
    rw [List.foldl_append, List.foldl_cons, List.foldl_nil]
    simp only
    generalize List.foldl _ (1 : ℝ) ds = l at ih hl ⊢
    set dp : ℝ := if d < 0 then mn else mx with hdp
    set phi : ℝ := (dp * dp + 2 * dp * d + 0) / (dp * dp + dp * d + 2 * d * d + 0) with hphi
    have hs : 0 ≤ dp * d := by
      rw [hdp]; split_ifs with hd
      · exact mul_nonneg_of_nonpos_of_nonpos h1 hd.le
      · exact mul_nonneg h2 (not_lt.1 hd)
    have hden : 0 ≤ dp * dp + dp * d + 2 * d * d + 0 := by nlinarith [mul_self_nonneg dp, mul_self_nonneg d]
    have h0 : 0 ≤ phi := div_nonneg (by nlinarith [mul_self_nonneg dp]) hden
    have shrink : ∀ x t s, 0 ≤ t → t ≤ s → mn ≤ s * x ∧ s * x ≤ mx → mn ≤ t * x ∧ t * x ≤ mx := by
      intro x t s ht hts ⟨a, b⟩
      rcases le_total 0 x with hx | hx
      · exact ⟨by nlinarith, by nlinarith⟩
      · exact ⟨by nlinarith, by nlinarith⟩
    -- phi d does not exceed dp
    have hb : mn ≤ phi * d ∧ phi * d ≤ mx := by
      rcases lt_trichotomy d 0 with hd | hd | hd
      · have e : dp = mn := by rw [hdp, if_pos hd]
        rw [e] at hs hden hphi
        have hd2 : 0 < mn * mn + mn * d + 2 * d * d + 0 := by nlinarith [mul_self_nonneg mn, mul_pos_of_neg_of_neg hd hd]
        have : phi * d = (mn * mn + 2 * mn * d) * d / (mn * mn + mn * d + 2 * d * d + 0) := by rw [hphi]; ring
        rw [this]
        constructor
        · rw [le_div_iff₀ hd2]
          have : 0 ≤ mn * mn := mul_self_nonneg mn
          nlinarith [mul_nonneg this (neg_nonneg.2 h1), mul_nonneg this (neg_nonneg.2 hd.le)]
        · refine le_trans (div_nonpos_of_nonpos_of_nonneg ?_ hd2.le) h2
          nlinarith [mul_self_nonneg mn]
      · rw [hd]; simp [h1, h2]
      · have e : dp = mx := by rw [hdp, if_neg (by linarith)]
        rw [e] at hs hden hphi
        have hd2 : 0 < mx * mx + mx * d + 2 * d * d + 0 := by nlinarith [mul_self_nonneg mx, mul_pos hd hd]
        have : phi * d = (mx * mx + 2 * mx * d) * d / (mx * mx + mx * d + 2 * d * d + 0) := by rw [hphi]; ring
        rw [this]
        constructor
        · refine le_trans h1 (div_nonneg ?_ hd2.le)
          have : 0 ≤ mx * mx := mul_self_nonneg mx
          positivity
        · rw [div_le_iff₀ hd2]
          have : 0 ≤ mx * mx := mul_self_nonneg mx
          nlinarith [mul_nonneg this h2, mul_nonneg this hd.le]
    split_ifs with hlt
    · intro x hx
      rcases List.mem_append.1 hx with hx | hx
      · exact shrink x phi l h0 hlt.2.le (ih x hx)
      · rw [List.mem_singleton] at hx; subst hx; exact hb
    · intro x hx
      rcases List.mem_append.1 hx with hx | hx
      · exact ih x hx
      · rw [List.mem_singleton] at hx; subst hx
        by_cases hden0 : dp * dp + dp * x + 2 * x * x + 0 = 0
        · have : x = 0 := by nlinarith [mul_self_nonneg dp, mul_self_nonneg x]
          rw [this]; simp [h1, h2]
        · have hle : l ≤ phi := by
            by_contra hn
            exact hlt ⟨hden0, not_le.1 hn⟩
          exact shrink x l phi hl hle hb

/-- With a smoothing term the Venkatakrishnan limiter does create new extrema: at a local extremum (all neighbours equal to the
cell) a non-zero gradient is not limited to zero. -/
theorem C47_venkatakrishnan_overshoot : venkLim 1 0 0 [1] * 1 > 0 := by
  norm_num [venkLim]

/-- C47: the Van Albada limiter lies in [0,1]. -/
theorem C47_vanAlbada (a b : ℝ) : 0 ≤ vanAlbada a b ∧ vanAlbada a b ≤ 1 := by
  unfold vanAlbada
  simp only
  have hd : 0 < a * a + b * b + 1e-8 := by nlinarith [mul_self_nonneg a, mul_self_nonneg b]
  split_ifs with h
  · exact ⟨le_rfl, zero_le_one⟩
  · refine ⟨not_lt.1 h, ?_⟩
    rw [div_le_one hd]
    nlinarith [mul_self_nonneg (a - b)]

theorem linExt_lim (uc : ℝ) (g : Fin 2 → ℝ) (lim : ℝ) (gp rc : Fin 2 → ℝ) :
    linExt uc g lim gp rc = uc + lim * (linExt uc g 1 gp rc - uc) := by unfold linExt; ring

/-! ### WENO -/

theorem wenoGrad_aux (lam : ℝ) (hl : 0 < lam) (rows : ℕ) (g : ℕ → Fin 2 → ℝ) (i : ℕ) (hi : i < rows) (nb : List ℕ) :
    ∃ v, wenoGrad lam rows g i nb = some v ∧ ∃ w : List (ℝ × ℕ), (w.map Prod.snd = i :: nb.filter (· < rows)) ∧
      (∀ p ∈ w, 0 < p.1) ∧ (w.map Prod.fst).sum = 1 ∧ ∀ d, v d = (w.map fun p => p.1 * g p.2 d).sum := by
  have hden : ∀ x : Fin 2 → ℝ, 0 < (gradMag2 x + 1e-5) ^ 4 := fun x => by
    have : 0 < gradMag2 x + 1e-5 := by unfold gradMag2; nlinarith [mul_self_nonneg (x 0), mul_self_nonneg (x 1)]
    positivity
  -- un-normalised weights
  let wt : ℕ → ℕ → ℝ := fun first j => (if first = 0 then lam else 1) / (gradMag2 (g j) + 1e-5) ^ 4
  have key : ∀ nb : List ℕ, nb.foldl (fun o j => o.bind fun s => if j ≥ rows then some s else (rd rows g j).map fun gj =>
        ((s.1 + 1 / (gradMag2 gj + 1e-5) ^ 4, fun d => s.2 d + 1 / (gradMag2 gj + 1e-5) ^ 4 * gj d) : ℝ × (Fin 2 → ℝ)))
      ((rd rows g i).map fun gi => ((0 + lam / (gradMag2 gi + 1e-5) ^ 4, fun d => 0 + lam / (gradMag2 gi + 1e-5) ^ 4 * gi d) : ℝ × (Fin 2 → ℝ))) =
      some ((((wt 0 i, i) :: (nb.filter (· < rows)).map fun j => (wt 1 j, j)).map Prod.fst).sum,
        fun d => (((wt 0 i, i) :: (nb.filter (· < rows)).map fun j => (wt 1 j, j)).map fun p => p.1 * g p.2 d).sum) := by
    intro nb
    induction nb using List.reverseRecOn with
    | nil => simp [rd, hi, wt]
    | append_singleton nb j ih =>
      rw [List.foldl_append, List.foldl_cons, List.foldl_nil, ih]
      by_cases hj : j < rows
      · have : ¬ j ≥ rows := by omega
        simp [rd, hj, this, wt, add_assoc]
      · have : j ≥ rows := by omega
        simp [hj, this]
  set W : List (ℝ × ℕ) := (wt 0 i, i) :: (nb.filter (· < rows)).map fun j => (wt 1 j, j) with hW
  have hpos : ∀ p ∈ W, 0 < p.1 := by
    intro p hp
    rw [hW, List.mem_cons, List.mem_map] at hp
    rcases hp with rfl | ⟨j, _, rfl⟩
    · exact div_pos (by simpa using hl) (hden _)
    · exact div_pos (by norm_num) (hden _)
  have hS : 0 < (W.map Prod.fst).sum := by
    rw [hW, List.map_cons, List.sum_cons]
    refine add_pos_of_pos_of_nonneg (hpos (wt 0 i, i) (by rw [hW]; simp)) (List.sum_nonneg fun x hx => ?_)
    obtain ⟨p, hp, rfl⟩ := List.mem_map.1 hx
    exact (hpos p (by rw [hW]; exact List.mem_cons_of_mem _ hp)).le
  refine ⟨_, by unfold wenoGrad; simp only; rw [key nb, ← hW]; rfl, W.map fun p => (p.1 / (W.map Prod.fst).sum, p.2), ?_, ?_, ?_, ?_⟩
  · rw [List.map_map, hW]
    simp [Function.comp_def]
  · intro p hp
    obtain ⟨q, hq, rfl⟩ := List.mem_map.1 hp
    exact div_pos (hpos q hq) hS
  · rw [List.map_map]
    have : (W.map (Prod.fst ∘ fun p : ℝ × ℕ => (p.1 / (W.map Prod.fst).sum, p.2))) = (W.map Prod.fst).map (fun x => x / (W.map Prod.fst).sum) := by
      rw [List.map_map]; rfl
    rw [this]
    have hdiv : ∀ (l : List ℝ) (c : ℝ), (l.map fun x => x / c).sum = l.sum / c := fun l c => by
      induction l with
      | nil => simp
      | cons x l ih => simp [ih, add_div]
    rw [hdiv, div_self hS.ne']
  · intro d
    rw [List.map_map]
    have hdiv : ∀ (l : List (ℝ × ℕ)) (c : ℝ), (l.map fun p => p.1 / c * g p.2 d).sum = (l.map fun p => p.1 * g p.2 d).sum / c := fun l c => by
      induction l with
      | nil => simp
      | cons x l ih => rw [List.map_cons, List.sum_cons, List.map_cons, List.sum_cons, ih]; ring
    exact (hdiv W _).symm

/-- C49: with a positive central weight, the WENO gradient is computed from existing rows only and is a convex combination, with
positive weights, of the gradients of the cell and of its neighbours other than physical-boundary ghosts. -/
theorem C49_convex {lam : ℝ} (hl : 0 < lam) (rows : ℕ) (g : ℕ → Fin 2 → ℝ) {i : ℕ} (hi : i < rows) (nb : List ℕ) :
    ∃ v, wenoGrad lam rows g i nb = some v ∧ ∃ w : List (ℝ × ℕ), (w.map Prod.snd = i :: nb.filter (· < rows)) ∧
      (∀ p ∈ w, 0 < p.1) ∧ (w.map Prod.fst).sum = 1 ∧ ∀ d, v d = (w.map fun p => p.1 * g p.2 d).sum :=
  wenoGrad_aux lam hl rows g i hi nb

/-- C49: each component of the WENO gradient is bounded by the smallest and largest component in the stencil. -/
theorem C49_bounded {lam : ℝ} (hl : 0 < lam) {rows : ℕ} {g : ℕ → Fin 2 → ℝ} {i : ℕ} (hi : i < rows) {nb : List ℕ} {v : Fin 2 → ℝ}
    (hv : wenoGrad lam rows g i nb = some v) {d : Fin 2} {lo hi' : ℝ} (hb : ∀ j ∈ i :: nb, j < rows → lo ≤ g j d ∧ g j d ≤ hi') :
    lo ≤ v d ∧ v d ≤ hi' := by
  obtain ⟨v', hv', w, hw1, hw2, hw3, hw4⟩ := C49_convex hl rows g hi nb
  rw [hv] at hv'; cases hv'
  have hmem : ∀ p ∈ w, lo ≤ g p.2 d ∧ g p.2 d ≤ hi' := by
    intro p hp
    have : p.2 ∈ i :: nb.filter (· < rows) := by rw [← hw1]; exact List.mem_map_of_mem hp
    rcases List.mem_cons.1 this with h | h
    · exact hb p.2 (by simp [h]) (by omega)
    · rw [List.mem_filter] at h
      exact hb p.2 (by simp [h.1]) (by simpa using h.2)
  have key : ∀ (l : List (ℝ × ℕ)), (∀ p ∈ l, 0 < p.1) → (∀ p ∈ l, lo ≤ g p.2 d ∧ g p.2 d ≤ hi') →
      (l.map Prod.fst).sum * lo ≤ (l.map fun p => p.1 * g p.2 d).sum ∧ (l.map fun p => p.1 * g p.2 d).sum ≤ (l.map Prod.fst).sum * hi' := by
    intro l
    induction l with
    | nil => intro _ _; simp
    | cons p l ih =>
      intro hp hg
      obtain ⟨a, b⟩ := ih (fun q hq => hp q (by simp [hq])) (fun q hq => hg q (by simp [hq]))
      obtain ⟨c, e⟩ := hg p (by simp)
      have h0 := hp p (by simp)
      simp only [List.map_cons, List.sum_cons]
      constructor <;> nlinarith
  have := key w hw2 hmem
  rw [hw3, ← hw4] at this
  constructor <;> linarith [this.1, this.2]

/-- C49: if all gradients of the stencil agree (as for a linear field), the WENO gradient is that gradient. -/
theorem C49_linear {lam : ℝ} (hl : 0 < lam) {rows : ℕ} {g : ℕ → Fin 2 → ℝ} {i : ℕ} (hi : i < rows) {nb : List ℕ} {c : Fin 2 → ℝ}
    (hc : ∀ j ∈ i :: nb, j < rows → g j = c) : wenoGrad lam rows g i nb = some c := by
  obtain ⟨v, hv, _⟩ := C49_convex hl rows g hi nb
  rw [hv]
  congr 1
  funext d
  have := C49_bounded hl hi hv (d := d) (lo := c d) (hi' := c d) (fun j hj hr => by rw [hc j hj hr]; exact ⟨le_rfl, le_rfl⟩)
  exact le_antisymm this.2 this.1

/-- C49 is not vacuous: a stencil with a boundary ghost (row 9 does not exist) and two different gradients. -/
example : ∃ v, wenoGrad 1000 2 (fun j => if j = 0 then ![1, 2] else ![3, 5]) 0 [1, 9] = some v ∧ 1 ≤ v 0 ∧ v 0 ≤ 3 := by
  obtain ⟨v, hv, _⟩ := C49_convex (lam := 1000) (by norm_num) 2 (fun j => if j = 0 then ![1, 2] else ![3, 5]) (i := 0) (by norm_num) [1, 9]
  refine ⟨v, hv, C49_bounded (by norm_num) (by norm_num) hv fun j _ hj => ?_⟩
  obtain rfl | rfl : j = 0 ∨ j = 1 := by omega
  · norm_num
  · norm_num

end FV
end FVENS
