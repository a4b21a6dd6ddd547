import Verif.FV.ReflectRun

/-!
# Two squares as a square and its mirror image (C100)
-/

namespace FVENS

open Msh Finset Flux FV Par Ode

/-- The unit square. -/
noncomputable def halfPair : Mesh where
  npoin := 4
  nelem := 1
  nbface := 4
  nconnface := 0
  nbtag := 1
  ndtag := 1
  nnode := fun _ => 4
  nfael := fun _ => 4
  inpoel := fun _ j => j
  bface := fun k j => if k = 0 then j else if k = 1 then j + 1 else if k = 2 then j + 2 else (if j = 0 then 3 else 0)
  btag := fun k _ => if k = 1 then 2 else 1
  volRegions := fun i _ => i
  connface := fun _ _ => 0
  coords := fun i d => if d = 0 then (if i = 1 ∨ i = 2 then 1 else 0) else (if i = 2 ∨ i = 3 then 1 else 0)

theorem halfPair_conforming : Conforming halfPair := (by decide +kernel : Check halfPair).conforming

theorem halfPair_topological : ∃ s, topological halfPair = .ok s :=
  topological_of_hosts (hosts := [(0, 0), (0, 1), (0, 2), (0, 3)]) (by decide +kernel)

theorem halfPair_nozero : NoZeroFace halfPair := by
  rintro ⟨i, f⟩ ⟨hi, hf⟩
  have hf : f < 4 := hf
  obtain rfl | rfl | rfl | rfl : f = 0 ∨ f = 1 ∨ f = 2 ∨ f = 3 := by omega
  all_goals
    intro e
    have e0 := congrFun e 0
    have e1 := congrFun e 1
    simp [halfPair] at e0 e1

theorem halfPair_area : (area halfPair 0).getD 0 = 1 := by norm_num [area, halfPair, triArea]

/-- Reflection at the line `x = 1`. -/
noncomputable def atOne : Reflection := ⟨-1, 0, ![2, 0], by norm_num⟩

/-- Extrapolation, with slip walls for tag 2. -/
noncomputable def airHalf (sch : Scheme) : Settings := ⟨air, sch, false, false, fun t => if t = 2 then some .slip else some .extrapolation⟩

/-- What lies across the sides of the squares. -/
def pairX (i f : ℕ) : Other :=
  if i = 0 then (if f = 0 then .bnd 0 else if f = 1 then .cell 1 else if f = 2 then .bnd 4 else .bnd 5)
  else (if f = 0 then .bnd 1 else if f = 1 then .bnd 2 else if f = 2 then .bnd 3 else .cell 0)

theorem pairX_across {i f : ℕ} (hi : i < 2) (hf : f < 4) : Across pair (i, f) (pairX i f) := by
  obtain rfl | rfl : i = 0 ∨ i = 1 := by omega
  all_goals obtain rfl | rfl | rfl | rfl : f = 0 ∨ f = 1 ∨ f = 2 ∨ f = 3 := by omega
  · exact ⟨by decide +kernel, by decide +kernel, by decide +kernel⟩
  · exact ⟨3, ⟨by decide +kernel, by decide +kernel⟩, ⟨by decide +kernel, by decide +kernel⟩, by simp, by decide +kernel⟩
  · exact ⟨by decide +kernel, by decide +kernel, by decide +kernel⟩
  · exact ⟨by decide +kernel, by decide +kernel, by decide +kernel⟩
  · exact ⟨by decide +kernel, by decide +kernel, by decide +kernel⟩
  · exact ⟨by decide +kernel, by decide +kernel, by decide +kernel⟩
  · exact ⟨by decide +kernel, by decide +kernel, by decide +kernel⟩
  · exact ⟨1, ⟨by decide +kernel, by decide +kernel⟩, ⟨by decide +kernel, by decide +kernel⟩, by simp, by decide +kernel⟩

theorem halfX_across {f : ℕ} (hf : f < 4) : Across halfPair (0, f) (.bnd f) := by
  obtain rfl | rfl | rfl | rfl : f = 0 ∨ f = 1 ∨ f = 2 ∨ f = 3 := by omega
  all_goals exact ⟨by decide +kernel, by decide +kernel, by decide +kernel⟩

/-- The other square. -/
def swap2 (i : ℕ) : ℕ := 1 - i

/-- Mirror images of boundary faces. -/
def swapB (k : ℕ) : ℕ := if k = 0 then 1 else if k = 1 then 0 else if k = 2 then 5 else if k = 3 then 4 else if k = 4 then 3 else 2

/-- Boundary faces of the square in the pair. -/
def halfB (k : ℕ) : ℕ := if k = 0 then 0 else if k = 2 then 4 else 5

/-- The pair of squares is cut into the first square and its mirror image. -/
theorem pair_cut {s s' : FState} (hs : topological pair = .ok s) (hs' : topological halfPair = .ok s') (sch : Scheme) :
    Disc.Cut atOne ((airOut sch).disc pair s 0) ((airHalf sch).disc halfPair s' 0) id swap2 halfB swapB fun _ f => (4 - f) % 4 := by
  have hok : ((airOut sch).disc pair s 0).G.Ok := ⟨pair_conforming, pair_nozero, hs⟩
  have hok' : ((airHalf sch).disc halfPair s' 0).G.Ok := ⟨halfPair_conforming, halfPair_nozero, hs'⟩
  have huq : ∀ {i f : ℕ} {o : Other}, i < 2 → f < 4 → Across pair (i, f) o → o = pairX i f := fun {i f o} hi hf ho =>
    Disc.across_unique hok (i := i) (f := f) hi hf ho (pairX_across hi hf)
  have huq' : ∀ {f : ℕ} {o : Other}, f < 4 → Across halfPair (0, f) o → o = .bnd f := fun {f o} hf ho =>
    Disc.across_unique hok' (i := 0) (f := f) (show 0 < 1 by omega) hf ho (halfX_across hf)
  have h4 : ∀ {f : ℕ}, f < 4 → f = 0 ∨ f = 1 ∨ f = 2 ∨ f = 3 := by omega
  have h2 : ∀ {i : ℕ}, i < 2 → i = 0 ∨ i = 1 := by omega
  have h1 : ∀ {i : ℕ}, i < 1 → i = 0 := by omega
  refine ⟨⟨rfl, rfl, fun i hi => ?_, fun i hi => rfl, fun i hi f hf => Nat.mod_lt _ (by omega), fun i hi f hf g hg e => ?_, fun i hi f hf => ?_, fun i hi f hf => ?_,
    fun i hi f hf j hj => ?_, fun i hi f hf k hk => ?_, fun k hk => rfl, rfl, rfl, rfl, rfl, fun i hi => ?_⟩,
    ⟨rfl, fun i hi => ?_, fun i hi => rfl, fun i hi f hf => ?_, fun i hi f hf => ?_, fun i hi f hf j hj => ?_, fun i hi f hf k hk => ?_, rfl, rfl, rfl, rfl, fun i hi => ?_⟩,
    fun c hc => ?_, fun i j hi hj _ => ?_, fun i j hi hj _ => ?_, fun i j hi hj => ?_⟩
  · show 1 - i < 2; omega
  · have hf : f < 4 := hf
    have hg : g < 4 := hg
    rcases h4 hf with rfl | rfl | rfl | rfl <;> rcases h4 hg with rfl | rfl | rfl | rfl <;> simp at e <;> rfl
  · have hi : i < 2 := hi
    have hf : f < 4 := hf
    rcases h2 hi with rfl | rfl <;> rcases h4 hf with rfl | rfl | rfl | rfl <;> funext d <;> fin_cases d <;>
      norm_num [nodeA, nodeB, Settings.disc, pair, Reflection.pt, refV, atOne, swap2]
  · have hi : i < 2 := hi
    have hf : f < 4 := hf
    rcases h2 hi with rfl | rfl <;> rcases h4 hf with rfl | rfl | rfl | rfl <;> funext d <;> fin_cases d <;>
      norm_num [nodeA, nodeB, Settings.disc, pair, Reflection.pt, refV, atOne, swap2]
  · have hi : i < 2 := hi
    have hf : f < 4 := hf
    have e := huq hi hf hj
    have hA := pairX_across (i := swap2 i) (f := (4 - f) % 4) (by show 1 - i < 2; omega) (Nat.mod_lt _ (by omega))
    rcases h2 hi with rfl | rfl <;> rcases h4 hf with rfl | rfl | rfl | rfl <;> simp [pairX] at e <;> subst e <;> exact hA
  · have hi : i < 2 := hi
    have hf : f < 4 := hf
    have e := huq hi hf hk
    have hA := pairX_across (i := swap2 i) (f := (4 - f) % 4) (by show 1 - i < 2; omega) (Nat.mod_lt _ (by omega))
    rcases h2 hi with rfl | rfl <;> rcases h4 hf with rfl | rfl | rfl | rfl <;> simp [pairX] at e <;> subst e <;> exact hA
  · have hi : i < 2 := hi
    show (area pair i).getD 0 = (area pair (swap2 i)).getD 0
    rw [pair_area hi, pair_area (by show 1 - i < 2; omega)]
  · have hi : i < 1 := hi
    show i < 2; omega
  · have hi : i < 1 := hi
    have hf : f < 4 := hf
    obtain rfl := h1 hi
    rcases h4 hf with rfl | rfl | rfl | rfl <;> funext d <;> fin_cases d <;> norm_num [nodeA, Settings.disc, pair, halfPair]
  · have hi : i < 1 := hi
    have hf : f < 4 := hf
    obtain rfl := h1 hi
    rcases h4 hf with rfl | rfl | rfl | rfl <;> funext d <;> fin_cases d <;> norm_num [nodeB, Settings.disc, pair, halfPair]
  · have hi : i < 1 := hi
    obtain rfl := h1 hi
    exact absurd (huq' hf hj) (by simp)
  · have hi : i < 1 := hi
    have hf : f < 4 := hf
    obtain rfl := h1 hi
    have e := huq' hf hk
    cases e
    have hA := pairX_across (i := 0) (f := f) (by omega) hf
    have hbc : ∀ k, ((airHalf sch).disc halfPair s' 0).bc (((airHalf sch).disc halfPair s' 0).tag k) = if k = 1 then some .slip else some .extrapolation := fun k => by
      show (if (((if k = 1 then 2 else 1 : ℕ)) : ℤ) = 2 then some BC.Obj.slip else some .extrapolation) = _
      split_ifs <;> simp_all
    rcases h4 hf with rfl | rfl | rfl | rfl
    · exact Or.inl ⟨hA, by rw [hbc]; rfl⟩
    · refine Or.inr ⟨hA, ?_, ?_, by rw [hbc]; rfl⟩
      · funext d; fin_cases d <;> norm_num [nodeA, Settings.disc, halfPair, Reflection.pt, refV, atOne]
      · funext d; fin_cases d <;> norm_num [nodeB, Settings.disc, halfPair, Reflection.pt, refV, atOne]
    · exact Or.inl ⟨hA, by rw [hbc]; rfl⟩
    · exact Or.inl ⟨hA, by rw [hbc]; rfl⟩
  · have hi : i < 1 := hi
    obtain rfl := h1 hi
    show (area halfPair 0).getD 0 = (area pair 0).getD 0
    rw [halfPair_area, pair_area (by omega)]
  · have hc : c < 2 := hc
    refine ⟨0, show 0 < 1 by omega, ?_⟩
    rcases h2 hc with rfl | rfl
    · exact Or.inl rfl
    · exact Or.inr rfl
  · have hi : i < 1 := hi
    have hj : j < 1 := hj
    omega
  · have hi : i < 1 := hi
    have hj : j < 1 := hj
    omega
  · have hi : i < 1 := hi
    have hj : j < 1 := hj
    rw [h1 hi, h1 hj]
    decide

/-- A gas moving towards the axis from both sides: a run of one iteration on the square with a slip wall and on the two squares. -/
example (sch : Scheme) : ∃ s s', topological pair = .ok s ∧ topological halfPair = .ok s' ∧ atOne.st uA ≠ uA ∧
    Disc.Unfolds atOne ((airOut sch).disc pair s 0) ((airHalf sch).disc halfPair s' 0) id swap2 (fun _ => uA) (two uA (atOne.st uA)) ∧
    ∃ k out, Solve forwardEuler (single ((airHalf sch).disc halfPair s' 0)) ⟨0, 1, 1, 2⟩ (fun _ => uA) k out ∧
      Solve forwardEuler (single ((airOut sch).disc pair s 0)) ⟨0, 1, 1, 2⟩ (two uA (atOne.st uA)) k out := by
  obtain ⟨s, hs, -⟩ := pair_topological
  obtain ⟨s', hs'⟩ := halfPair_topological
  have hU : Disc.Unfolds atOne ((airOut sch).disc pair s 0) ((airHalf sch).disc halfPair s' 0) id swap2 (fun _ => uA) (two uA (atOne.st uA)) := by
    refine ⟨fun i hi => ?_, fun c hc => ?_⟩
    · have hi : i < 1 := hi
      obtain rfl : i = 0 := by omega
      rfl
    · have hc : c < 2 := hc
      obtain rfl | rfl : c = 0 ∨ c = 1 := by omega
      · rfl
      · exact (atOne.st_st uA).symm
  refine ⟨s, s', hs, hs', fun e => ?_, hU, ?_⟩
  · have := congrFun e 1
    simp [Reflection.st, refS, atOne, uA] at this
    norm_num at this
  · obtain ⟨⟨k, out, hk⟩, hb⟩ := C56_terminates forwardEuler (single ((airHalf sch).disc halfPair s' 0)) ⟨0, 1, 1, 2⟩ (fun _ => uA)
    have hbc : ((airOut sch).disc pair s 0).BcOk := fun k _ => rfl
    have hok : ((airOut sch).disc pair s 0).G.Ok := ⟨pair_conforming, pair_nozero, hs⟩
    have hok' : ((airHalf sch).disc halfPair s' 0).G.Ok := ⟨halfPair_conforming, halfPair_nozero, hs'⟩
    have hg : 4 ≤ 3 * ((airOut sch).disc pair s 0).gas.g := by norm_num [Settings.disc, airOut, air]
    refine ⟨k, out, hk, (Disc.C100_half_run hok hok' (pair_cut hs hs' sch) hbc hg hU hk fun j hj m hm i hi => ?_).1⟩
    have := (hb k out hk).1
    have hj0 : j = 0 := by
      have : (k : ℤ) ≤ 1 := by simpa using this
      omega
    subst hj0
    simp only [traj, Option.some.injEq] at hm
    subst hm
    exact adm_uA

end FVENS
