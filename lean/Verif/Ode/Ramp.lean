import Verif.Phys.Props
import Mathlib.Analysis.SpecialFunctions.Pow.Real

/-!
# CFL ramps (C54) and under-relaxation (C55)
-/

namespace FVENS
namespace Ode

/-- `linearRamp`, src/ode/aodesolver.cpp:87-108. -/
noncomputable def linearRamp (cstart cend : ℝ) (itstart itend itcur : ℤ) : ℝ :=
  if itcur < itstart then cstart
  else if itcur < itend then
    if itend - itstart ≤ 0 then cend
    else
      let slopec := (cend - cstart) / ((itend - itstart : ℤ) : ℝ)
      cstart + slopec * ((itcur - itstart : ℤ) : ℝ)
  else cend

/-- `expResidualRamp`, src/ode/aodesolver.cpp:110-120. The ratio is a finite non-negative number (see `Steady`). -/
noncomputable def expRamp (cflmin cflmax prevcfl resratio paramup paramdown : ℝ) : ℝ :=
  let newcfl := if resratio > 1 then prevcfl * resratio ^ paramup else prevcfl * resratio ^ paramdown
  if newcfl < cflmin then cflmin else if newcfl > cflmax then cflmax else newcfl

/-! ### C54 -/

/-- C54: the linear ramp stays between its end values, in either order. -/
theorem C54_linear_bounds (a b : ℝ) (i j n : ℤ) : min a b ≤ linearRamp a b i j n ∧ linearRamp a b i j n ≤ max a b := by
  unfold linearRamp
  split_ifs with h1 h2 h3
  · exact ⟨min_le_left _ _, le_max_left _ _⟩
  · exact ⟨min_le_right _ _, le_max_right _ _⟩
  · set t : ℝ := ((n - i : ℤ) : ℝ) / ((j - i : ℤ) : ℝ) with ht
    have hd : (0 : ℝ) < ((j - i : ℤ) : ℝ) := by exact_mod_cast (by omega : 0 < j - i)
    have ht0 : 0 ≤ t := div_nonneg (by exact_mod_cast (by omega : 0 ≤ n - i)) hd.le
    have ht1 : t ≤ 1 := by rw [ht, div_le_one hd]; exact_mod_cast (by omega : n - i ≤ j - i)
    have e : a + (b - a) / ((j - i : ℤ) : ℝ) * ((n - i : ℤ) : ℝ) = a + (b - a) * t := by rw [ht]; ring
    dsimp only
    rw [e]
    rcases le_total a b with h | h
    · rw [min_eq_left h, max_eq_right h]; constructor <;> nlinarith
    · rw [min_eq_right h, max_eq_left h]; constructor <;> nlinarith
  · exact ⟨min_le_right _ _, le_max_right _ _⟩

/-- C54: the ramp starts at the first value, ends at the second, and is monotone in the iteration count (for any iterations of start and end). -/
theorem C54_linear_monotone {a b : ℝ} (hab : a ≤ b) (i j : ℤ) :
    Monotone (linearRamp a b i j) ∧ (∀ n, n < i → linearRamp a b i j n = a) ∧ ∀ n, i ≤ n → j ≤ n → linearRamp a b i j n = b := by
  refine ⟨?_, fun n hn => by simp [linearRamp, hn], fun n h1 h2 => by simp [linearRamp, not_lt.2 h1, not_lt.2 h2]⟩
  intro n m hnm
  have hB := C54_linear_bounds a b i j
  simp only [min_eq_left hab, max_eq_right hab] at hB
  by_cases h1 : n < i
  · have : linearRamp a b i j n = a := by simp [linearRamp, h1]
    rw [this]; exact (hB m).1
  by_cases h2 : m < j
  · have hd : (0 : ℝ) < ((j - i : ℤ) : ℝ) := by exact_mod_cast (by omega : 0 < j - i)
    have e : ∀ k : ℤ, i ≤ k → k < j → linearRamp a b i j k = a + (b - a) / ((j - i : ℤ) : ℝ) * ((k - i : ℤ) : ℝ) := fun k hk hk' => by
      have h3 : ¬ j - i ≤ 0 := by omega
      simp only [linearRamp, if_neg (not_lt.2 hk), if_pos hk', if_neg h3]
    rw [e n (by omega) (by omega), e m (by omega) h2]
    have hs : 0 ≤ (b - a) / ((j - i : ℤ) : ℝ) := div_nonneg (by linarith) hd.le
    have : ((n - i : ℤ) : ℝ) ≤ ((m - i : ℤ) : ℝ) := by exact_mod_cast (by omega : n - i ≤ m - i)
    nlinarith
  · have h3 : ¬ m < i := by omega
    have : linearRamp a b i j m = b := by simp only [linearRamp, if_neg h3, if_neg h2]
    rw [this]; exact (hB n).2

/-- C54: the residual-based ramp stays within the configured limits, whatever the previous value and the residual ratio. -/
theorem C54_exp_bounds {lo hi : ℝ} (h : lo ≤ hi) (prev ratio up down : ℝ) : lo ≤ expRamp lo hi prev ratio up down ∧ expRamp lo hi prev ratio up down ≤ hi := by
  unfold expRamp
  dsimp only
  split_ifs <;> constructor <;> linarith

/-- C54: when the residual falls the CFL number does not decrease, when it rises it does not increase, and it is unchanged for equal residuals. -/
theorem C54_exp_monotone {lo hi prev ratio up down : ℝ} (h0 : 0 ≤ prev) (hp : lo ≤ prev ∧ prev ≤ hi) (hu : 0 ≤ up) (hd : 0 ≤ down) (hr : 0 ≤ ratio) :
    (1 < ratio → prev ≤ expRamp lo hi prev ratio up down) ∧ (ratio < 1 → expRamp lo hi prev ratio up down ≤ prev) ∧
    (ratio = 1 → expRamp lo hi prev ratio up down = prev) := by
  refine ⟨fun h => ?_, fun h => ?_, fun h => ?_⟩
  · have h1 : (1 : ℝ) ≤ ratio ^ up := Real.one_le_rpow h.le hu
    unfold expRamp
    simp only [gt_iff_lt, h, if_true]
    split_ifs <;> nlinarith
  · have h1 : ratio ^ down ≤ 1 := Real.rpow_le_one hr h.le hd
    unfold expRamp
    simp only [gt_iff_lt, not_lt.2 h.le, if_false]
    split_ifs <;> nlinarith [hp.1, hp.2]
  · subst h
    unfold expRamp
    simp [not_lt.2 hp.1, not_lt.2 hp.2]

/-- C54: a larger fall of the residual never gives a smaller CFL number. -/
theorem C54_exp_ratio_monotone {lo hi prev up down : ℝ} (h : lo ≤ hi) (h0 : 0 ≤ prev) (hu : 0 ≤ up) (hd : 0 ≤ down) {x y : ℝ} (hx : 0 ≤ x) (hxy : x ≤ y) :
    expRamp lo hi prev x up down ≤ expRamp lo hi prev y up down := by
  have key : (if x > 1 then prev * x ^ up else prev * x ^ down) ≤ (if y > 1 then prev * y ^ up else prev * y ^ down) := by
    split_ifs with h1 h2 h2
    · exact mul_le_mul_of_nonneg_left (Real.rpow_le_rpow hx hxy hu) h0
    · exact absurd (lt_of_lt_of_le h1 hxy) h2
    · have a1 : x ^ down ≤ 1 := Real.rpow_le_one hx (not_lt.1 h1) hd
      have a2 : (1 : ℝ) ≤ y ^ up := Real.one_le_rpow (le_of_lt h2) hu
      nlinarith
    · exact mul_le_mul_of_nonneg_left (Real.rpow_le_rpow hx hxy hd) h0
  unfold expRamp
  dsimp only
  generalize (if x > 1 then prev * x ^ up else prev * x ^ down) = p at *
  generalize (if y > 1 then prev * y ^ up else prev * y ^ down) = q at *
  split_ifs <;> linarith

/-- Concrete cases: from 1 to 10 over iterations 30 to 100, and between 1 and 100 with the parameters of the implicit solver. -/
example : linearRamp 1 10 30 100 65 = 11 / 2 ∧ linearRamp 1 10 30 100 7 = 1 ∧ (1 : ℝ) ≤ 10 := by norm_num [linearRamp]
example : (5 : ℝ) ≤ expRamp 1 100 5 16 (1/4) (3/10) ∧ expRamp 1 100 5 16 (1/4) (3/10) = 10 := by
  have h : (16 : ℝ) ^ (1/4 : ℝ) = 2 := by
    rw [show (16 : ℝ) = 2 ^ (4 : ℝ) by norm_num, ← Real.rpow_mul (by norm_num)]; norm_num
  constructor
  · exact (C54_exp_monotone (by norm_num) ⟨by norm_num, by norm_num⟩ (by norm_num) (by norm_num) (by norm_num)).1 (by norm_num)
  · unfold expRamp
    simp only [show (16 : ℝ) > 1 by norm_num, if_true, h]; norm_num

/-! ### C55 -/

/-- `FlowSimpleUpdate::getLocalRelaxationFactor`, src/ode/nonlinearrelaxation.cpp:24-38; the constructor rejects factors outside (0,1],
src/ode/nonlinearrelaxation.cpp:16-22. -/
noncomputable def relaxFactor (G : Gas) (minfactor : ℝ) (du u : St) : ℝ :=
  let p := G.pressure u
  let dp := |G.deltaPressure u du| / p
  let drho := |du 0| / u 0
  let danger := max dp drho
  if danger < 1 - minfactor then 1 - danger else minfactor

/-- Construction succeeds, src/ode/nonlinearrelaxation.cpp:20-21. -/
def MinOk (m : ℝ) : Prop := ¬ (m ≤ 0 ∨ m > 1)

theorem rho_pos {r d w : ℝ} (hr : 0 < r) (hr' : 0 < r + d) (hw : 0 ≤ w ∧ w ≤ 1) : 0 < r + w * d := by
  rcases hw.1.eq_or_lt with h | h
  · rw [← h]; simpa using hr
  · nlinarith [mul_nonneg (sub_nonneg.2 hw.2) hr.le, mul_pos h hr']

/-- C55: for an admissible state the factor lies between the configured minimum and one, and the density of the relaxed state is positive
unless the minimum was chosen; it is also positive for the minimum if the density at the full step is. -/
theorem C55_range_density {G : Gas} {m : ℝ} (hm : MinOk m) {u du : St} (hr : 0 < u 0) :
    (m ≤ relaxFactor G m du u ∧ relaxFactor G m du u ≤ 1) ∧ (relaxFactor G m du u ≠ m → 0 < u 0 + relaxFactor G m du u * du 0) ∧
    (0 < u 0 + du 0 → 0 < u 0 + relaxFactor G m du u * du 0) := by
  unfold MinOk at hm
  push Not at hm
  have hd : 0 ≤ max (|G.deltaPressure u du| / G.pressure u) (|du 0| / u 0) := le_max_of_le_right (by positivity)
  have hrho : |du 0| ≤ max (|G.deltaPressure u du| / G.pressure u) (|du 0| / u 0) * u 0 := by
    rw [← div_le_iff₀ hr]; exact le_max_right _ _
  have hrange : m ≤ relaxFactor G m du u ∧ relaxFactor G m du u ≤ 1 := by
    unfold relaxFactor
    dsimp only
    split_ifs <;> constructor <;> linarith
  refine ⟨hrange, ?_, fun h => ?_⟩
  · unfold relaxFactor
    dsimp only
    set d := max (|G.deltaPressure u du| / G.pressure u) (|du 0| / u 0)
    split_ifs with h
    · intro _
      have h1 := neg_abs_le (du 0)
      have h2 : 0 ≤ 1 - d := by linarith
      have h3 : (1 - d) * |du 0| ≤ (1 - d) * (d * u 0) := mul_le_mul_of_nonneg_left hrho h2
      have h4 : (1 - d) * -|du 0| ≤ (1 - d) * du 0 := mul_le_mul_of_nonneg_left h1 h2
      have h5 : 0 < u 0 * (1 - (1 - d) * d) := mul_pos hr (by nlinarith)
      nlinarith
    · intro h; exact absurd rfl h
  · exact rho_pos hr h ⟨by linarith [hrange.1], hrange.2⟩

theorem pressure_concave {G : Gas} (hg : 1 < G.g) {u du : St} (hr : 0 < u 0) (hr' : 0 < u 0 + du 0) {w : ℝ} (hw : 0 ≤ w ∧ w ≤ 1) :
    (1 - w) * G.pressure u + w * G.pressure (u + du) ≤ G.pressure (fun i => u i + w * du i) := by
  have hrw : 0 < u 0 + w * du 0 := rho_pos hr hr' hw
  have key : ∀ i, (u i + w * du i) ^ 2 / (u 0 + w * du 0) ≤ (1 - w) * ((u i) ^ 2 / u 0) + w * ((u i + du i) ^ 2 / (u 0 + du 0)) := fun i => by
    rw [div_le_iff₀ hrw, ← sub_nonneg]
    have e : ((1 - w) * ((u i) ^ 2 / u 0) + w * ((u i + du i) ^ 2 / (u 0 + du 0))) * (u 0 + w * du 0) - (u i + w * du i) ^ 2 =
        w * (1 - w) * ((u i + du i) * u 0 - u i * (u 0 + du 0)) ^ 2 / (u 0 * (u 0 + du 0)) := by
      field_simp; ring
    rw [e]
    have : 0 ≤ 1 - w := by linarith [hw.2]
    have := hw.1
    positivity
  have k1 := key 1
  have k2 := key 2
  simp only [Gas.pressure, Gas.pressureOfInternal, dot, mom, Pi.add_apply]
  have hg' : 0 < G.g - 1 := by linarith
  simp only [Matrix.cons_val_zero, Matrix.cons_val_one]
  have e1 : ∀ a b r : ℝ, 1 / 2 * (a * a + b * b) / r = 1 / 2 * (a ^ 2 / r) + 1 / 2 * (b ^ 2 / r) := fun a b r => by ring
  simp only [e1]
  nlinarith

/-- C55: pressure stays positive where the coded pressure increment is right (`C05_deltaPressure_correct_iff`). Missing for the full claim: updates
for which it is not, see `C55_refuted`. -/
theorem C55_pressure_partial {G : Gas} (hg : 1 < G.g) {m : ℝ} (hm : MinOk m) {u du : St} (hr : 0 < u 0) (hp : 0 < G.pressure u)
    (hd : G.deltaPressure u du = G.pressure (u + du) - G.pressure u) (hne : relaxFactor G m du u ≠ m) :
    0 < G.pressure (fun i => u i + relaxFactor G m du u * du i) := by
  obtain ⟨⟨h1, h2⟩, _, _⟩ := C55_range_density (G := G) (du := du) hm hr
  unfold MinOk at hm
  push Not at hm
  have hlt : max (|G.deltaPressure u du| / G.pressure u) (|du 0| / u 0) < 1 := by
    by_contra h
    apply hne
    unfold relaxFactor
    dsimp only
    rw [if_neg]
    linarith [not_lt.1 h]
  have hrho : |du 0| < u 0 := by
    have := lt_of_le_of_lt (le_max_right _ _) hlt
    rwa [div_lt_one hr] at this
  have hpp : |G.deltaPressure u du| < G.pressure u := by
    have := lt_of_le_of_lt (le_max_left _ _) hlt
    rwa [div_lt_one hp] at this
  have hr' : 0 < u 0 + du 0 := by linarith [neg_abs_le (du 0)]
  have hp' : 0 < G.pressure (u + du) := by
    have := neg_abs_le (G.deltaPressure u du)
    linarith
  have hc := pressure_concave hg hr hr' (w := relaxFactor G m du u) ⟨by linarith, h2⟩
  have hw : 0 < relaxFactor G m du u := by linarith
  nlinarith

/-- Concrete case: density falls by 19 %, energy by 10 %, at rest: the coded increment is right and the factor is 0.81. -/
example : MinOk (1/10) ∧ (0 : ℝ) < (![1, 0, 0, 5/2] : St) 0 ∧ 0 < air.pressure ![1, 0, 0, 5/2] ∧
    air.deltaPressure ![1, 0, 0, 5/2] ![-19/100, 0, 0, -1/4] = air.pressure (![1, 0, 0, 5/2] + ![-19/100, 0, 0, -1/4]) - air.pressure ![1, 0, 0, 5/2] ∧
    relaxFactor air (1/10) ![-19/100, 0, 0, -1/4] ![1, 0, 0, 5/2] ≠ 1/10 := by
  have hp : air.pressure ![1, 0, 0, 5/2] = 1 := by simp [Gas.pressure, Gas.pressureOfInternal, air, dot, mom]; norm_num
  have hd : air.deltaPressure ![1, 0, 0, 5/2] ![-19/100, 0, 0, -1/4] = -(1/10) := by
    simp [Gas.deltaPressure, Gas.deltaPTerm, air]; norm_num
  refine ⟨by unfold MinOk; norm_num, by norm_num, by rw [hp]; norm_num, ?_, ?_⟩
  · rw [hd, hp]
    simp [Gas.pressure, Gas.pressureOfInternal, air, dot, mom]; norm_num
  · unfold relaxFactor
    rw [hp, hd]
    simp only [Matrix.cons_val_zero, abs_neg]
    rw [show |(1/10 : ℝ)| / 1 = 1/10 by norm_num [abs_of_pos], show |(-19/100 : ℝ)| / 1 = 19/100 by norm_num [abs_of_neg]]
    norm_num

/-- C55 fails: an update of the x-momentum goes unnoticed, the full step is taken, and the pressure becomes negative. -/
theorem C55_refuted : ∃ u du : St, 0 < u 0 ∧ 0 < air.pressure u ∧ relaxFactor air (1/10) du u = 1 ∧
    air.pressure (fun i => u i + relaxFactor air (1/10) du u * du i) < 0 := by
  have h : relaxFactor air (1/10) ![0, 3, 0, 0] ![1, 0, 0, 5/2] = 1 := by
    simp [relaxFactor, Gas.deltaPressure, Gas.deltaPTerm]; norm_num
  refine ⟨![1, 0, 0, 5/2], ![0, 3, 0, 0], by norm_num, ?_, h, ?_⟩
  · simp [Gas.pressure, Gas.pressureOfInternal, air, dot, mom]; norm_num
  · rw [h]; simp [Gas.pressure, Gas.pressureOfInternal, air, dot, mom]; norm_num

end Ode
end FVENS
