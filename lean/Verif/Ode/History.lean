import Verif.Ode.Steady
import Mathlib.Analysis.SpecialFunctions.Pow.Real
import Mathlib.Analysis.SpecialFunctions.Pow.Asymptotics

/-! C103: the CFL numbers of a steady run as a function of its residual norms (src/ode/aodesolver.cpp:110-120, 158-170, 194, 240-246, 402-405,
462, 535-541). -/

namespace FVENS
namespace Ode

variable {S : Type} {k : Kind} {P : Prob S} {c : Conf} {u : S}

/-! ## Specification -/

/-- `x` confined to the interval from `lo` to `hi`. -/
noncomputable def clamp (lo hi x : ℝ) : ℝ := max lo (min hi x)

/-- Factor by which a residual norm that went from `a` to `b` changes the CFL number: the ratio to one power if the norm fell and another one if
it rose. -/
noncomputable def gain (up down a b : ℝ) : ℝ := (a / b) ^ (if b < a then up else down)

/-- CFL number reported in iteration `n`. -/
def Reported (k : Kind) (P : Prob S) (c : Conf) (u : S) (n : ℕ) (a : ℝ) : Prop := ∃ b, LogEntry k P c u n a b

/-- The two solvers. -/
def IsSteady (k : Kind) : Prop := k = forwardEuler ∨ k = backwardEuler

/-- Sensible limits. -/
structure Limits (c : Conf) : Prop where
  pos : 0 < c.cflinit
  le : c.cflinit ≤ c.cflfin

/-! ## Lemmas -/

theorem ramp_clamp {lo hi prev a b up down : ℝ} (h : lo ≤ hi) (hb : 0 < b) :
    expRamp lo hi prev (a / b) up down = clamp lo hi (prev * gain up down a b) := by
  have e : a / b > 1 ↔ b < a := by rw [gt_iff_lt, one_lt_div hb]
  have hk : (if a / b > 1 then prev * (a / b) ^ up else prev * (a / b) ^ down) = prev * gain up down a b := by
    unfold gain
    by_cases hab : b < a
    · rw [if_pos (e.2 hab), if_pos hab]
    · rw [if_neg (fun h => hab (e.1 h)), if_neg hab]
  unfold expRamp
  dsimp only
  rw [hk]
  generalize prev * gain up down a b = x
  unfold clamp
  split_ifs with h1 h2
  · rw [max_eq_left]; exact le_trans (min_le_right _ _) h1.le
  · rw [min_eq_left h2.le, max_eq_right h]
  · rw [min_eq_right (not_lt.1 h2), max_eq_right (not_lt.1 h1)]

theorem clamp_lo {lo hi x : ℝ} (_h : lo ≤ hi) (hx : x ≤ lo) : clamp lo hi x = lo := by
  unfold clamp; rw [max_eq_left]; exact le_trans (min_le_right _ _) hx

theorem clamp_of_ge {lo hi x : ℝ} (h : lo ≤ hi) (hx : lo ≤ x) : clamp lo hi x = min hi x := by
  unfold clamp; rw [max_eq_right]; exact le_min h hx

theorem clamp_bounds {lo hi : ℝ} (h : lo ≤ hi) (x : ℝ) : lo ≤ clamp lo hi x ∧ clamp lo hi x ≤ hi :=
  ⟨le_max_left _ _, max_le h (min_le_left _ _)⟩

theorem gain_one {up down : ℝ} {a b : ℝ} (h : a = b) (hb : 0 < b) : gain up down a b = 1 := by
  unfold gain; rw [h, div_self hb.ne', Real.one_rpow]

theorem one_le_gain {up down a b : ℝ} (hu : 0 ≤ up) (hb : 0 < b) (h : b ≤ a) : 1 ≤ gain up down a b := by
  rcases h.eq_or_lt with e | e
  · rw [gain_one e.symm hb]
  · unfold gain; rw [if_pos e]
    exact Real.one_le_rpow ((one_le_div hb).2 h) hu

theorem gain_le_one {up down a b : ℝ} (hd : 0 ≤ down) (ha : 0 ≤ a) (hb : 0 < b) (h : a ≤ b) : gain up down a b ≤ 1 := by
  unfold gain
  rw [if_neg (not_lt.2 h)]
  exact Real.rpow_le_one (div_nonneg ha hb.le) ((div_le_one hb).2 h) hd

theorem gain_falling {up down a b : ℝ} (hb : 0 < b) (h : b ≤ a) : gain up down a b = (a / b) ^ up := by
  rcases h.eq_or_lt with e | e
  · rw [gain_one e.symm hb, e, div_self (e ▸ hb).ne', Real.one_rpow]
  · unfold gain; rw [if_pos e]

theorem IsSteady.exps (hk : IsSteady k) : 0 < k.up ∧ 0 < k.down := by
  rcases hk with rfl | rfl <;> norm_num [forwardEuler, backwardEuler]

theorem IsSteady.start (hk : IsSteady k) (hl : Limits c) : 0 ≤ k.cfl0 c ∧ k.cfl0 c ≤ c.cflinit := by
  have := hl.pos.le
  rcases hk with rfl | rfl <;> simp [forwardEuler, backwardEuler, this]

/-- The memory after iteration `n` in terms of the one before. -/
theorem traj_next {n : ℕ} {s' : Mem S} (h : traj k P c u (n + 1) = some s') :
    ∃ s, traj k P c u n = some s ∧ s'.resiold = s.resi ∧ s'.cfl = expRamp c.cflinit c.cflfin s.cfl (s.resiold / s.resi) k.up k.down := by
  obtain ⟨s, h1, h2⟩ := Option.bind_eq_some_iff.1 (show (traj k P c u n).bind (body k P c) = some s' from h)
  refine ⟨s, h1, ?_⟩
  unfold body at h2
  split at h2
  · cases h2
  · cases h2; exact ⟨rfl, rfl⟩

theorem body_some {s : Mem S} {r : ℝ} (h : P.norm s.u = some r) : ∃ t, body k P c s = some t ∧
    t.u = P.upd (k.used c (expRamp c.cflinit c.cflfin s.cfl (s.resiold / s.resi) k.up k.down)) s.u ∧
    t.cfl = expRamp c.cflinit c.cflfin s.cfl (s.resiold / s.resi) k.up k.down ∧
    t.log = s.log ++ [(expRamp c.cflinit c.cflfin s.cfl (s.resiold / s.resi) k.up k.down,
      k.used c (expRamp c.cflinit c.cflfin s.cfl (s.resiold / s.resi) k.up k.down))] ∧
    t.resi = r ∧ t.resiold = s.resi := by
  unfold body
  rw [h]
  exact ⟨_, rfl, rfl, rfl, rfl, rfl, rfl⟩

theorem reported_iff {n : ℕ} {a : ℝ} : Reported k P c u n a ↔ ∃ s, traj k P c u (n + 1) = some s ∧ s.cfl = a := by
  constructor
  · rintro ⟨b, s, h1, h2, h3⟩; exact ⟨s, h1, h3⟩
  · rintro ⟨s, h1, h2⟩; exact ⟨_, s, h1, h2 ▸ log_last h1, h2⟩

theorem reported_exists {n : ℕ} {r : ℕ → ℝ} (h : Hist k P c u (n + 1) r) : ∃ a, Reported k P c u n a := by
  obtain ⟨s, s', h1, h2, h3, h4⟩ := traj_of_hist (h n (Nat.lt_succ_self n))
  exact ⟨s'.cfl, reported_iff.2 ⟨s', h3, rfl⟩⟩

theorem reported_unique {n : ℕ} {a b : ℝ} (ha : Reported k P c u n a) (hb : Reported k P c u n b) : a = b := by
  obtain ⟨s, h1, h2⟩ := reported_iff.1 ha
  obtain ⟨t, h3, h4⟩ := reported_iff.1 hb
  rw [h1] at h3; cases h3; rw [← h2, h4]

/-! ## Theorems -/

/-- C103: every CFL number reported lies within the limits. -/
theorem C103_bounds (hl : Limits c) {n : ℕ} {a : ℝ} (h : Reported k P c u n a) : c.cflinit ≤ a ∧ a ≤ c.cflfin := by
  obtain ⟨s, h1, rfl⟩ := reported_iff.1 h
  obtain ⟨s', _, _, e⟩ := traj_next h1
  rw [e]
  exact C54_exp_bounds hl.le _ _ _ _

/-- C103: the first iteration uses the initial CFL number. -/
theorem C103_first (hk : IsSteady k) (hl : Limits c) {a : ℝ} (h : Reported k P c u 0 a) : a = c.cflinit := by
  obtain ⟨s, h1, rfl⟩ := reported_iff.1 h
  obtain ⟨s', h2, _, e⟩ := traj_next h1
  simp only [traj, Option.some.injEq] at h2
  subst h2
  rw [e]
  simp only [init]
  rw [ramp_clamp hl.le one_pos, gain_one rfl one_pos, mul_one]
  exact clamp_lo hl.le (hk.start hl).2

/-- C103: the second iteration compares the first residual norm with the number one. -/
theorem C103_second (hk : IsSteady k) (hl : Limits c) {r : ℕ → ℝ} (hr : Hist k P c u 1 r) (h0 : 0 < r 0) {a : ℝ} (h : Reported k P c u 1 a) :
    a = clamp c.cflinit c.cflfin (c.cflinit * gain k.up k.down 1 (r 0)) := by
  obtain ⟨s, h1, rfl⟩ := reported_iff.1 h
  obtain ⟨s', h2, _, e⟩ := traj_next h1
  have hfirst := C103_first hk hl (reported_iff.2 ⟨s', h2, rfl⟩)
  obtain ⟨s'', h3, h4, _⟩ := traj_next h2
  simp only [traj, Option.some.injEq] at h3
  have hresi : s'.resi = r 0 := by
    have := (traj_succ h2).1; rw [hr 0 (by omega)] at this; exact (Option.some.inj this).symm
  have hold : s'.resiold = 1 := by rw [h4, ← h3]; rfl
  rw [e, hresi, hold, hfirst]
  exact ramp_clamp hl.le h0

/-- C103: every later iteration compares the norms found in the two iterations before. -/
theorem C103_later (hl : Limits c) {n : ℕ} {r : ℕ → ℝ} (hr : Hist k P c u (n + 2) r) (h0 : 0 < r (n + 1)) {a b : ℝ} (ha : Reported k P c u (n + 1) a)
    (hb : Reported k P c u (n + 2) b) : b = clamp c.cflinit c.cflfin (a * gain k.up k.down (r n) (r (n + 1))) := by
  obtain ⟨s, h1, rfl⟩ := reported_iff.1 hb
  obtain ⟨s', h2, _, e⟩ := traj_next h1
  obtain ⟨s'', h3, h4, _⟩ := traj_next h2
  have hcfl : s'.cfl = a := reported_unique (reported_iff.2 ⟨s', h2, rfl⟩) ha
  have hresi : s'.resi = r (n + 1) := by
    have := (traj_succ h2).1; rw [hr (n + 1) (by omega)] at this; exact (Option.some.inj this).symm
  have hold : s'.resiold = r n := by
    rw [h4]
    have := (traj_succ h3).1; rw [hr n (by omega)] at this; exact (Option.some.inj this).symm
  rw [e, hresi, hold, hcfl]
  exact ramp_clamp hl.le h0

/-- C103: after a fall of the norm the CFL number is not lowered, after a rise it is not raised, and unless a limit is met it changes exactly when the
norm does. -/
theorem C103_direction (hk : IsSteady k) (hl : Limits c) {n : ℕ} {r : ℕ → ℝ} (hr : Hist k P c u (n + 2) r) (h0 : 0 < r n) (h1 : 0 < r (n + 1)) {a b : ℝ}
    (ha : Reported k P c u (n + 1) a) (hb : Reported k P c u (n + 2) b) :
    (r (n + 1) ≤ r n → a ≤ b) ∧ (r n ≤ r (n + 1) → b ≤ a) ∧ (r (n + 1) < r n → a < c.cflfin → a < b) ∧ (r n < r (n + 1) → c.cflinit < a → b < a) := by
  have hB := C103_bounds hl ha
  have ha0 : 0 < a := lt_of_lt_of_le hl.pos hB.1
  have e := C103_later hl hr h1 ha hb
  obtain ⟨hu, hd⟩ := hk.exps
  refine ⟨fun h => ?_, fun h => ?_, fun h hlt => ?_, fun h hlt => ?_⟩
  · have hg := one_le_gain (down := k.down) hu.le h1 h
    rw [e, clamp_of_ge hl.le (by nlinarith)]
    exact le_min hB.2 (by nlinarith)
  · have hg := gain_le_one (up := k.up) hd.le h0.le h1 h
    rw [e]; unfold clamp
    exact max_le hB.1 (le_trans (min_le_right _ _) (by nlinarith))
  · have hg : 1 < gain k.up k.down (r n) (r (n + 1)) := by
      rw [gain_falling h1 h.le]; exact Real.one_lt_rpow ((one_lt_div h1).2 h) hu
    rw [e, clamp_of_ge hl.le (by nlinarith)]
    exact lt_min hlt (by nlinarith)
  · have hg : gain k.up k.down (r n) (r (n + 1)) < 1 := by
      unfold gain; rw [if_neg (not_lt.2 h.le)]
      exact Real.rpow_lt_one (div_nonneg h0.le h1.le) ((div_lt_one h1).2 h) hd
    rw [e]; unfold clamp
    exact max_lt hlt (lt_of_le_of_lt (min_le_right _ _) (by nlinarith))

theorem gain_mul {x y z p : ℝ} (hx : 0 ≤ x) (hy : 0 < y) (hz : 0 < z) : (x / y) ^ p * (y / z) ^ p = (x / z) ^ p := by
  rw [← Real.mul_rpow (div_nonneg hx hy.le) (div_nonneg hy.le hz.le)]
  congr 1
  field_simp

/-- C103: as long as the norms do not rise, the CFL number depends on the last norm only: it is the initial one times a power of the fall since the
first norm, or since the number one if the first norm is smaller. -/
theorem C103_falling (hk : IsSteady k) (hl : Limits c) {n : ℕ} {r : ℕ → ℝ} (hr : Hist k P c u (n + 1) r) (hpos : ∀ j ≤ n, 0 < r j)
    (hfall : ∀ j < n, r (j + 1) ≤ r j) {a : ℝ} (ha : Reported k P c u (n + 1) a) :
    a = min c.cflfin (c.cflinit * (max 1 (r 0) / r n) ^ k.up) := by
  obtain ⟨hu, hd⟩ := hk.exps
  have h0 := hpos 0 (by omega)
  induction n generalizing a with
  | zero =>
    rw [C103_second hk hl hr h0 ha]
    rcases le_total 1 (r 0) with h | h
    · rw [max_eq_right h, div_self h0.ne', Real.one_rpow, mul_one, min_eq_right hl.le]
      have := gain_le_one (up := k.up) hd.le zero_le_one h0 h
      exact clamp_lo hl.le (by nlinarith [hl.pos])
    · have hg := one_le_gain (down := k.down) hu.le h0 h
      rw [max_eq_left h, clamp_of_ge hl.le (by nlinarith [hl.pos]), gain_falling h0 h]
  | succ n ih =>
    obtain ⟨b, hb⟩ := reported_exists (n := n + 1) hr
    have hrn : Hist k P c u (n + 1) r := fun j hj => hr j (by omega)
    have e := ih hrn (fun j hj => hpos j (by omega)) (fun j hj => hfall j (by omega)) hb
    have hn := hpos n (by omega)
    have hn1 := hpos (n + 1) (by omega)
    have hf := hfall n (by omega)
    have hg := one_le_gain (up := k.up) (down := k.down) hu.le hn1 hf
    have hb0 := C103_bounds hl hb
    rw [C103_later hl hr hn1 hb ha, clamp_of_ge hl.le (by nlinarith [hl.pos])]
    have hm : 0 ≤ max 1 (r 0) := le_trans zero_le_one (le_max_left _ _)
    have e2 : c.cflinit * (max 1 (r 0) / r (n + 1)) ^ k.up = c.cflinit * (max 1 (r 0) / r n) ^ k.up * gain k.up k.down (r n) (r (n + 1)) := by
      rw [gain_falling hn1 hf, mul_assoc, gain_mul hm hn hn1]
    rw [e2]
    generalize c.cflinit * (max 1 (r 0) / r n) ^ k.up = x at e
    generalize gain k.up k.down (r n) (r (n + 1)) = g at hg
    have hfin : 0 < c.cflfin := lt_of_lt_of_le hl.pos hl.le
    rcases le_total c.cflfin x with h | h
    · rw [min_eq_left h] at e
      rw [e, min_eq_left (by nlinarith), min_eq_left (by nlinarith)]
    · rw [min_eq_right h] at e
      rw [e]

/-- C103: if the norms fall to zero, the final CFL number is reached and kept. -/
theorem C103_final (hk : IsSteady k) (hl : Limits c) {r : ℕ → ℝ} (hr : ∀ n, hist k P c u n = some (r n)) (hpos : ∀ n, 0 < r n) (hfall : Antitone r)
    (hlim : Filter.Tendsto r Filter.atTop (nhds 0)) : ∃ N, ∀ n ≥ N, Reported k P c u n c.cflfin := by
  obtain ⟨hu, hd⟩ := hk.exps
  have hfin : 0 < c.cflfin := lt_of_lt_of_le hl.pos hl.le
  set q := c.cflfin / c.cflinit with hq
  have hq1 : 1 ≤ q := (one_le_div hl.pos).2 hl.le
  set δ := (q ^ (1 / k.up))⁻¹ with hδ
  have hqp : 0 < q ^ (1 / k.up) := Real.rpow_pos_of_pos (by linarith) _
  obtain ⟨N, hN⟩ := Filter.eventually_atTop.1 (hlim.eventually (gt_mem_nhds (inv_pos.2 hqp)))
  refine ⟨N + 1, fun n hn => ?_⟩
  obtain ⟨m, rfl⟩ : ∃ m, n = m + 1 := ⟨n - 1, by omega⟩
  have hh : Hist k P c u (m + 2) r := fun j _ => hr j
  obtain ⟨a, ha⟩ := reported_exists (n := m + 1) hh
  have e := C103_falling hk hl (n := m) (fun j _ => hr j) (fun j _ => hpos j) (fun j _ => hfall (Nat.le_succ j)) ha
  have hrm : r m < (q ^ (1 / k.up))⁻¹ := hN m (by omega)
  have h1 : q ^ (1 / k.up) ≤ max 1 (r 0) / r m := by
    rw [le_div_iff₀ (hpos m)]
    have : q ^ (1 / k.up) * r m ≤ 1 := by
      have := mul_lt_mul_of_pos_left hrm hqp
      rw [mul_inv_cancel₀ hqp.ne'] at this
      exact this.le
    exact le_trans this (le_max_left _ _)
  have h2 : q ≤ (max 1 (r 0) / r m) ^ k.up := by
    have := Real.rpow_le_rpow hqp.le h1 hu.le
    rwa [← Real.rpow_mul (by linarith), one_div, inv_mul_cancel₀ hu.ne', Real.rpow_one] at this
  have h3 : c.cflfin ≤ c.cflinit * (max 1 (r 0) / r m) ^ k.up := by
    have := mul_le_mul_of_nonneg_left h2 hl.pos.le
    rwa [hq, mul_div_cancel₀ _ hl.pos.ne'] at this
  rw [min_eq_left h3] at e
  exact e ▸ ha

/-! ## Scaled residuals -/

/-- The same problem with residuals in another unit: norms multiplied by `s`. -/
structure Rescaled {S' : Type} (P : Prob S) (P' : Prob S') (φ : S → S') (s : ℝ) : Prop where
  pos : 0 < s
  norm : ∀ u, P'.norm (φ u) = (P.norm u).map (s * ·)
  upd : ∀ a u, P'.upd a (φ u) = φ (P.upd a u)

theorem gain_scale {up down a b s : ℝ} (hs : 0 < s) : gain up down (s * a) (s * b) = gain up down a b := by
  unfold gain
  rw [mul_div_mul_left _ _ hs.ne']
  simp only [mul_lt_mul_iff_right₀ hs]

/-- C103 (partial): if the first residual norm is at least one in both units, the runs agree: the states correspond, the same CFL numbers are reported and used,
and the norms keep their ratio. Missing for the full claim: first norms below one, see `C103_scaling_refuted`. -/
theorem C103_scaling_partial {S' : Type} {P' : Prob S'} {φ : S → S'} {s : ℝ} (hk : IsSteady k) (hl : Limits c) (hR : Rescaled P P' φ s) {r : ℕ → ℝ} {n : ℕ}
    (hr : Hist k P c u n r) (hpos : ∀ j < n, 0 < r j) (h1 : 1 ≤ r 0) (h1' : 1 ≤ s * r 0) :
    Hist k P' c (φ u) n (fun j => s * r j) ∧
    ∀ t, traj k P c u n = some t → ∃ t', traj k P' c (φ u) n = some t' ∧ t'.u = φ t.u ∧ t'.cfl = t.cfl ∧ t'.log = t.log := by
  have main : ∀ m ≤ n, ∃ t t', traj k P c u m = some t ∧ traj k P' c (φ u) m = some t' ∧ t'.u = φ t.u ∧ t'.cfl = t.cfl ∧ t'.log = t.log ∧
      (m = 0 → t.cfl = k.cfl0 c ∧ t.resi = 1 ∧ t'.resi = 1 ∧ t.resiold = 1 ∧ t'.resiold = 1) ∧
      (m = 1 → t.cfl = c.cflinit ∧ t.resi = r 0 ∧ t'.resi = s * r 0 ∧ t.resiold = 1 ∧ t'.resiold = 1) ∧
      (2 ≤ m → t.resi = r (m - 1) ∧ t'.resi = s * r (m - 1) ∧ t.resiold = r (m - 2) ∧ t'.resiold = s * r (m - 2)) := by
    intro m
    induction m with
    | zero => exact fun _ => ⟨_, _, rfl, rfl, rfl, rfl, rfl, fun _ => ⟨rfl, rfl, rfl, rfl, rfl⟩, by omega, by omega⟩
    | succ m ih =>
      intro hm
      obtain ⟨t, t', e1, e2, eu, ec, el, i0, i1, i2⟩ := ih (by omega)
      have hn : P.norm t.u = some (r m) := by
        have := hr m (by omega); unfold hist at this; rwa [e1, Option.bind_some] at this
      have hn' : P'.norm t'.u = some (s * r m) := by rw [eu, hR.norm, hn]; rfl
      have hrm := hpos m (by omega)
      have hcfl : expRamp c.cflinit c.cflfin t'.cfl (t'.resiold / t'.resi) k.up k.down = expRamp c.cflinit c.cflfin t.cfl (t.resiold / t.resi) k.up k.down := by
        rw [ec]
        rcases (by omega : m = 0 ∨ m = 1 ∨ 2 ≤ m) with h | h | h
        · obtain ⟨_, b, b', d, d'⟩ := i0 h; rw [b, b', d, d']
        · obtain ⟨a, b, b', d, d'⟩ := i1 h
          have hd := hk.exps.2
          have hr0 := hpos 0 (by omega)
          have hsr0 := mul_pos hR.pos hr0
          rw [a, b, b', d, d', ramp_clamp hl.le hr0, ramp_clamp hl.le hsr0]
          have g1 := gain_le_one (up := k.up) hd.le zero_le_one hr0 h1
          have g2 := gain_le_one (up := k.up) hd.le zero_le_one hsr0 h1'
          rw [clamp_lo hl.le (by nlinarith [hl.pos]), clamp_lo hl.le (by nlinarith [hl.pos])]
        · obtain ⟨b, b', d, d'⟩ := i2 h
          rw [b, b', d, d', mul_div_mul_left _ _ hR.pos.ne']
      have b1 : traj k P c u (m + 1) = body k P c t := by simp [traj, e1]
      have b2 : traj k P' c (φ u) (m + 1) = body k P' c t' := by simp [traj, e2]
      obtain ⟨w, f1, wu, wc, wl, wr, wo⟩ := body_some (k := k) (c := c) hn
      obtain ⟨w', f2, wu', wc', wl', wr', wo'⟩ := body_some (k := k) (c := c) hn'
      rw [hcfl] at wu' wc' wl'
      refine ⟨w, w', b1.trans f1, b2.trans f2, ?_, wc'.trans wc.symm, ?_, by omega, fun h => ?_, fun h => ?_⟩
      · rw [wu', wu, eu, hR.upd]
      · rw [wl', wl, el]
      · obtain rfl : m = 0 := by omega
        obtain ⟨a, b, b', d, d'⟩ := i0 rfl
        refine ⟨?_, wr, wr', wo.trans b, wo'.trans b'⟩
        rw [wc, b, d, ramp_clamp hl.le one_pos, gain_one rfl one_pos, mul_one]
        exact clamp_lo hl.le (a ▸ (hk.start hl).2)
      · rcases (by omega : m = 1 ∨ 2 ≤ m) with h2 | h2
        · subst h2
          obtain ⟨a, b, b', d, d'⟩ := i1 rfl
          exact ⟨wr, wr', wo.trans b, wo'.trans b'⟩
        · obtain ⟨b, b', d, d'⟩ := i2 h2
          exact ⟨wr, wr', wo.trans b, wo'.trans b'⟩
  refine ⟨fun j hj => ?_, fun t ht => ?_⟩
  · obtain ⟨t, t', e1, e2, eu, -⟩ := main j hj.le
    have := hr j hj
    unfold hist at this ⊢
    rw [e1, Option.bind_some] at this
    rw [e2, Option.bind_some, eu, hR.norm, this]; rfl
  · obtain ⟨t0, t', e1, e2, eu, ec, el, -⟩ := main n le_rfl
    rw [e1] at ht; cases ht
    exact ⟨t', e2, eu, ec, el⟩

/-! ## Concrete cases and the refutation -/

/-- A problem in which a step of CFL number `a` divides the state by `1 + a`; the norm is the state in units of `1/s`. -/
noncomputable def damped (s : ℝ) (hs : 0 < s) : Prob ℝ where
  norm := fun u => some (s * |u|)
  nonneg := fun u r h => by cases h; positivity
  upd := fun a u => u / (1 + a)

theorem damped_rescaled (s t : ℝ) (hs : 0 < s) (ht : 0 < t) : Rescaled (damped s hs) (damped t ht) id (t / s) where
  pos := div_pos ht hs
  norm := fun u => by simp only [damped, id_eq, Option.map_some]; congr 1; field_simp
  upd := fun _ _ => rfl

theorem damped_limits : Limits (⟨0.01, 100, 1, 10⟩ : Conf) := ⟨by norm_num, by norm_num⟩

/-- The first two CFL numbers of the implicit solver: 1 and the fourth root of the reciprocal of the first norm. -/
theorem damped_second {s : ℝ} (hs : 0 < s) {a : ℝ} (h : Reported backwardEuler (damped s hs) ⟨0.01, 100, 1, 10⟩ 1 1 a) :
    a = min 10 ((max 1 s / s) ^ (0.25 : ℝ)) := by
  have := C103_falling (r := fun _ => s) (n := 0) (.inr rfl) damped_limits (fun j hj => ?_) (fun _ _ => hs) (fun j hj => by omega) h
  · simpa [backwardEuler] using this
  · obtain rfl : j = 0 := by omega
    simp [hist, traj, init, damped]

/-- C103 fails: for a first norm of one and of one sixteenth the implicit solver takes different CFL numbers, 1 and 2, in the second iteration and arrives at different
states, although the two problems differ in the unit of the residual only. -/
theorem C103_scaling_refuted : ∃ (P P' : Prob ℝ) (c : Conf) (u : ℝ), Limits c ∧ Rescaled P P' id (1 / 16) ∧ hist backwardEuler P c u 0 = some 1 ∧
    (∃ a b, Reported backwardEuler P c u 1 a ∧ Reported backwardEuler P' c u 1 b ∧ a = 1 ∧ b = 2) ∧
    ∃ t t', traj backwardEuler P c u 2 = some t ∧ traj backwardEuler P' c u 2 = some t' ∧ t'.u < t.u := by
  have hd := damped_rescaled 1 (1 / 16) one_pos (by norm_num)
  rw [div_one] at hd
  have key : ∀ s : ℝ, ∀ hs : 0 < s, ∃ a t, Reported backwardEuler (damped s hs) ⟨0.01, 100, 1, 10⟩ 1 1 a ∧ a = min 10 ((max 1 s / s) ^ (0.25 : ℝ)) ∧
      traj backwardEuler (damped s hs) ⟨0.01, 100, 1, 10⟩ 1 2 = some t ∧ t.u = 1 / 2 / (1 + a) := by
    intro s hs
    obtain ⟨t1, f1, u1, c1, -⟩ := body_some (k := backwardEuler) (c := ⟨0.01, 100, 1, 10⟩) (P := damped s hs) (s := init backwardEuler ⟨0.01, 100, 1, 10⟩ 1)
      (r := s * |1|) rfl
    have g1 : traj backwardEuler (damped s hs) ⟨0.01, 100, 1, 10⟩ 1 1 = some t1 := by simp only [traj, Option.bind_some]; exact f1
    have hc1 : t1.cfl = 1 := C103_first (.inr rfl) damped_limits (reported_iff.2 ⟨t1, g1, rfl⟩)
    rw [← c1, hc1] at u1
    obtain ⟨t2, f2, u2, c2, -⟩ := body_some (k := backwardEuler) (c := ⟨0.01, 100, 1, 10⟩) (P := damped s hs) (s := t1) (r := s * |t1.u|) rfl
    have g2 : traj backwardEuler (damped s hs) ⟨0.01, 100, 1, 10⟩ 1 2 = some t2 := by
      show (traj backwardEuler (damped s hs) ⟨0.01, 100, 1, 10⟩ 1 1).bind _ = _
      rw [g1, Option.bind_some]; exact f2
    have hrep := reported_iff.2 ⟨t2, g2, rfl⟩
    refine ⟨t2.cfl, t2, hrep, damped_second hs hrep, g2, ?_⟩
    rw [← c2] at u2
    rw [u2, u1]
    simp only [damped, backwardEuler, init]
    norm_num
  obtain ⟨a, t, h1, h2, h3, h4⟩ := key 1 one_pos
  obtain ⟨b, t', h1', h2', h3', h4'⟩ := key (1 / 16) (by norm_num)
  have ea : a = 1 := by rw [h2]; norm_num
  have eb : b = 2 := by
    rw [h2']
    have h : (16 : ℝ) ^ (0.25 : ℝ) = 2 := by
      rw [show (16 : ℝ) = 2 ^ (4 : ℝ) by norm_num, ← Real.rpow_mul (by norm_num)]; norm_num
    norm_num at h ⊢
  refine ⟨damped 1 one_pos, damped (1 / 16) (by norm_num), ⟨0.01, 100, 1, 10⟩, 1, damped_limits, hd, by simp [hist, traj, init, damped], ⟨a, b, h1, h1', ea, eb⟩, t, t', h3, h3', ?_⟩
  rw [h4, h4', ea, eb]; norm_num

/-- Concrete case for the scaling theorem: norms 4 and 8 to begin with, two iterations. -/
example : ∃ r : ℕ → ℝ, Hist backwardEuler (damped 4 (by norm_num)) ⟨0.01, 100, 1, 10⟩ 1 1 r ∧ 1 ≤ r 0 ∧ 1 ≤ (8 / 4) * r 0 ∧
    Rescaled (damped 4 (by norm_num)) (damped 8 (by norm_num)) id (8 / 4) :=
  ⟨fun _ => 4, fun j hj => by obtain rfl : j = 0 := by omega
                              simp [hist, traj, init, damped], by norm_num, by norm_num, damped_rescaled 4 8 _ _⟩

/-- Concrete case for falling norms: each iteration halves the norm, so both solvers come to the final CFL number. -/
example (hk : IsSteady k) : ∃ N, ∀ n ≥ N, Reported k halving ⟨0.01, 100, 1, 10⟩ 1 n 10 :=
  C103_final (r := fun n => (1 / 2) ^ n) hk damped_limits (halving_hist k _) (fun n => by positivity)
    (fun _ _ h => pow_le_pow_of_le_one (by norm_num) (by norm_num) h)
    (tendsto_pow_atTop_nhds_zero_of_lt_one (by norm_num) (by norm_num))

/-- Concrete case for one step: the fourth iteration of the halving problem has a larger CFL number than the third. -/
example (hk : IsSteady k) {a b : ℝ} (ha : Reported k halving ⟨0.01, 100, 1, 10⟩ 1 2 a) (hb : Reported k halving ⟨0.01, 100, 1, 10⟩ 1 3 b) (h : a < 10) : a < b :=
  (C103_direction (n := 1) (r := fun n => (1 / 2) ^ n) hk damped_limits (fun j _ => halving_hist k _ j) (by norm_num) (by norm_num) ha hb).2.2.1 (by norm_num) h

end Ode
end FVENS
