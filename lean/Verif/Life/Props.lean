import Verif.Life.Whole

/-! # Every object is destroyed once, after its last use -/

namespace FVENS.Life

/-! ## Runs with invalid settings -/

theorem run_badBcs {c : Cfg} (h : ¬ c.BcsOk) (s m : Course) (out : Bool) : run c s m = makeSpace .main c.order2 c ∧ runOutput c s m out = makeSpace .main c.order2 c ∧
    (makeSpace .main c.order2 c).2 = some .other := by
  obtain ⟨k, -, hk⟩ := makeSpace_bad .main c.order2 c h
  simp [run, runOutput, andThen, hk]

theorem fate_badBcs {c : Cfg} (h : ¬ c.BcsOk) (o : Obj) : (fate o false (makeSpace .main c.order2 c).1).isSome := by
  obtain ⟨n, -, hn⟩ := makeSpace_bad .main c.order2 c h
  rw [hn]
  rcases o with ⟨p, k⟩
  cases p
  · simp [fate_append, fate, fate_bcMakes]
  · cases k <;> simp [fate_append, fate, fate_bcMakes, fate_makes]

theorem starter_badUpd {c : Cfg} (hb : c.BcsOk) (hi : c.implicit = true) (hu : c.updOk = false) (s : Course) :
    starter c s = ([Ev.use ⟨.main, .space⟩] ++ (makeSpace .starter false c).1 ++ makeLhs .starter c, some .other) := by
  have h9 : (makeSpace .starter false c).2 = none := by rw [makeSpace_ok _ _ _ hb]
  simp [starter, makeUpd, hi, hu, tell, raise, andThen, h9]

theorem fate_badUpd {c : Cfg} (hb : c.BcsOk) (hi : c.implicit = true) (hu : c.updOk = false) (s : Course) (k : Kind) :
    fate ⟨.starter, k⟩ false (starter c s).1 = some (lhsOnly false c k) := by
  have h0 : fate ⟨.starter, k⟩ false [Ev.use ⟨.main, .space⟩] = some false := by simp [fate]
  simp only [starter_badUpd hb hi hu, fate_append, h0, Option.bind_some, fate_makeSpace .starter false c hb, fate_lhsOnly]

theorem run_badUpd {c : Cfg} (hb : c.BcsOk) (hi : c.implicit = true) (hu : c.updOk = false) (s m : Course) (out : Bool) :
    run c s m = ((makeSpace .main c.order2 c).1 ++ (starter c s).1, some .other) ∧ runOutput c s m out = ((makeSpace .main c.order2 c).1 ++ (starter c s).1, some .other) := by
  have h9 : (makeSpace .main c.order2 c).2 = none := by rw [makeSpace_ok _ _ _ hb]
  have h10 : (starter c s).2 = some .other := by rw [starter_badUpd hb hi hu]
  simp [run, runOutput, execute, andThen, h9, h10, catchTol]

theorem fate_space_starter {c : Cfg} (hb : c.BcsOk) (s : Course) (k : Kind) :
    fate ⟨.main, k⟩ false ((makeSpace .main c.order2 c).1 ++ (starter c s).1) = some (partOf c.order2 c k) := by
  simp only [fate_append, fate_makeSpace .main c.order2 c hb, Option.bind_some]
  exact fate_starter_main c hb s k _ (by rintro rfl; rfl)

theorem fate_space_other {c : Cfg} (hb : c.BcsOk) (k : Kind) : fate ⟨.starter, k⟩ false (makeSpace .main c.order2 c).1 = some false := by
  rw [makeSpace_ok _ _ _ hb]
  simp [fate_append, fate, fate_bcMakes, fate_ite]

/-! ## Runs with valid settings -/

theorem execute_broken {c : Cfg} (hc : c.Valid) (s m : Course) (h : (c.use && s.fin.Breaks) = true) : execute c s m = ((starter c s).1, some .num) := by
  have := starter_exc hc s
  rw [h, if_pos rfl] at this
  simp [execute, andThen, this]

theorem execute_ok {c : Cfg} (hc : c.Valid) (s m : Course) (h : (c.use && s.fin.Breaks) = false) :
    execute c s m = ((starter c s).1 ++ (mainSolve c m).1, if m.fin = .conv then none else some .tol) := by
  have h1 := starter_exc hc s
  rw [h, if_neg (by simp)] at h1
  simp [execute, andThen, h1, mainSolve_exc hc]

theorem fate_execute_starter {c : Cfg} (hc : c.Valid) (s m : Course) (k : Kind) : fate ⟨.starter, k⟩ false (execute c s m).1 = some (leftS c s k) := by
  cases h : (c.use && s.fin.Breaks)
  · simp only [execute_ok hc s m h, fate_append, fate_starter hc, Option.bind_some, fate_mainSolve_starter]
  · simp only [execute_broken hc s m h, fate_starter hc]

theorem fate_execute_main {c : Cfg} (hc : c.Valid) (s m : Course) (k : Kind) : fate ⟨.main, k⟩ (partOf c.order2 c k) (execute c s m).1 =
    some (if c.use && s.fin.Breaks then partOf c.order2 c k else leftM c m k) := by
  have h1 := fate_starter_main c hc.bcs s k (partOf c.order2 c k) (by rintro rfl; rfl)
  cases h : (c.use && s.fin.Breaks)
  · simp only [execute_ok hc s m h, fate_append, h1, Option.bind_some, fate_mainSolve hc, Bool.false_eq_true, if_false]
  · simp only [execute_broken hc s m h, h1, if_true]

theorem fate_residual_left (c : Cfg) (m : Course) (k : Kind) : fate ⟨.main, k⟩ (leftM c m k) (residual .main c.order2 c) = some (leftM c m k) := by
  by_cases h : (lin c k || vec c k) = true
  · cases k <;> simp [lin, vec] at h <;> simp [residual, fate_append, fate, fate_ite, fate_onBcs_use]
  · simp only [Bool.not_eq_true, Bool.or_eq_false_iff] at h
    have : leftM c m k = partOf c.order2 c k := by simp [leftM, linear, h]
    rw [this]
    exact fate_residual _ _ _ _

theorem fate_free_left (c : Cfg) (m : Course) (k : Kind) :
    fate ⟨.main, k⟩ (leftM c m k) (freeSpace .main c.order2 c) = some (restOf c k || (m.fin.Fails && (lin c k || vec c k))) := by
  by_cases h : (lin c k || vec c k) = true
  · have hr : restOf c k = false := by cases k <;> simp [lin, vec] at h <;> rfl
    have hp : leftM c m k = (m.fin.Fails && (lin c k || vec c k)) := by
      cases k <;> simp [lin, vec] at h <;> cases hf : m.fin.Fails <;> simp [leftM, linear, lin, vec, hf, partOf]
    rw [hr, hp, Bool.false_or]
    cases k <;> simp [lin, vec] at h <;> simp [freeSpace, fate_append, fate, fate_ite, fate_onBcs_free]
  · simp only [Bool.not_eq_true] at h
    have h' := h
    simp only [Bool.or_eq_false_iff] at h'
    have : leftM c m k = partOf c.order2 c k := by simp [leftM, linear, h']
    rw [this, h, Bool.and_false, Bool.or_false]
    exact fate_freeSpace _ _ _ _

/-- What becomes of the objects in `run`. -/
theorem fate_run {c : Cfg} (hc : c.Valid) (s m : Course) (k : Kind) :
    fate ⟨.starter, k⟩ false (run c s m).1 = some (leftS c s k) ∧
    fate ⟨.main, k⟩ false (run c s m).1 = some (if c.use && s.fin.Breaks then partOf c.order2 c k else if m.fin = .conv then restOf c k else leftM c m k) := by
  have h9 : (makeSpace .main c.order2 c).2 = none := by rw [makeSpace_ok _ _ _ hc.bcs]
  have h1 := fate_makeSpace .main c.order2 c hc.bcs k
  have h2 := fate_space_other hc.bcs k
  have h3 := fate_execute_starter hc s m k
  have h4 := fate_execute_main hc s m k
  have h5 := fun b => (fate_otherPhase (p := .starter) (p' := .main) (by simp) k b c.order2 c).1
  have h6 := fate_free_left c m k
  cases h : (c.use && s.fin.Breaks)
  · have he : (execute c s m).2 = if m.fin = .conv then none else some .tol := by rw [execute_ok hc s m h]
    rw [h] at h4
    simp only [Bool.false_eq_true, if_false] at h4
    by_cases hm : m.fin = .conv
    · rw [if_pos hm] at he
      simp only [run, tell, andThen, h9, he, fate_append, h1, h2, h3, h4, h5, h6, Option.bind_some, hm, if_true, Bool.false_eq_true, if_false, true_and]
      simp [End.Fails]
    · rw [if_neg hm] at he
      simp only [run, tell, andThen, h9, he, fate_append, h1, h2, h3, h4, Option.bind_some, hm, Bool.false_eq_true, if_false, true_and]
  · have he : (execute c s m).2 = some .num := by rw [execute_broken hc s m h]
    rw [h] at h4
    simp only [if_true] at h4
    simp only [run, tell, andThen, h9, he, fate_append, h1, h2, h3, h4, Option.bind_some, if_true, true_and]

/-- What becomes of the objects in `run_output`. -/
theorem fate_runOutput {c : Cfg} (hc : c.Valid) (s m : Course) (out : Bool) (k : Kind) :
    fate ⟨.starter, k⟩ false (runOutput c s m out).1 = some (leftS c s k) ∧
    fate ⟨.main, k⟩ false (runOutput c s m out).1 = some (if c.use && s.fin.Breaks then partOf c.order2 c k else if out then restOf c k || (m.fin.Fails && (lin c k || vec c k)) else leftM c m k) := by
  have h9 : (makeSpace .main c.order2 c).2 = none := by rw [makeSpace_ok _ _ _ hc.bcs]
  have h1 := fate_makeSpace .main c.order2 c hc.bcs k
  have h2 := fate_space_other hc.bcs k
  have h3 := fate_execute_starter hc s m k
  have h4 := fate_execute_main hc s m k
  have h5 := fun b => (fate_otherPhase (p := .starter) (p' := .main) (by simp) k b c.order2 c).1
  have h5' := fun b => (fate_otherPhase (p := .starter) (p' := .main) (by simp) k b c.order2 c).2.2.2.1
  have h6 := fate_free_left c m k
  have h7 := fate_residual_left c m k
  have hn : ∀ o b, fate o b [] = some b := fun _ _ => rfl
  cases h : (c.use && s.fin.Breaks)
  · have he : (catchTol (execute c s m)).2 = none ∧ (catchTol (execute c s m)).1 = (execute c s m).1 := by
      rw [execute_ok hc s m h]
      by_cases hm : m.fin = .conv <;> simp [catchTol, hm]
    rw [h] at h4
    simp only [Bool.false_eq_true, if_false] at h4
    cases out <;>
      simp only [runOutput, tell, raise, andThen, h9, he, fate_append, h1, h2, h3, h4, h5, h5', h6, h7, hn, Option.bind_some, if_true, Bool.false_eq_true, if_false, true_and]
  · have he : catchTol (execute c s m) = ((execute c s m).1, some .num) := by rw [execute_broken hc s m h]; rfl
    rw [h] at h4
    simp only [if_true] at h4
    simp only [runOutput, tell, andThen, h9, he, fate_append, h1, h2, h3, h4, Option.bind_some, if_true, true_and]

/-! ## The property -/

/-- C115, safety: whatever the settings and however the solves go, no object is used or destroyed unless it exists, none is destroyed twice, and none is created over an existing
one. -/
theorem C115_safe (c : Cfg) (s m : Course) (out : Bool) : Safe (run c s m).1 ∧ Safe (runOutput c s m out).1 := by
  by_cases hb : c.BcsOk
  · by_cases hu : c.implicit = true → c.updOk = true
    · have hc : c.Valid := ⟨hb, hu⟩
      refine ⟨safe_of_fate fun o => ?_, safe_of_fate fun o => ?_⟩ <;> rcases o with ⟨p, k⟩ <;> cases p
      · rw [(fate_run hc s m k).1]; rfl
      · rw [(fate_run hc s m k).2]; rfl
      · rw [(fate_runOutput hc s m out k).1]; rfl
      · rw [(fate_runOutput hc s m out k).2]; rfl
    · simp only [Classical.not_imp, Bool.not_eq_true] at hu
      obtain ⟨h1, h2⟩ := run_badUpd hb hu.1 hu.2 s m out
      rw [h1, h2]
      refine ⟨?_, ?_⟩ <;> refine safe_of_fate fun o => ?_ <;> rcases o with ⟨p, k⟩ <;> cases p
      · rw [fate_append, fate_space_other hb, Option.bind_some, fate_badUpd hb hu.1 hu.2]; rfl
      · rw [fate_space_starter hb]; rfl
      · rw [fate_append, fate_space_other hb, Option.bind_some, fate_badUpd hb hu.1 hu.2]; rfl
      · rw [fate_space_starter hb]; rfl
  · obtain ⟨h1, h2, -⟩ := run_badBcs hb s m out
    rw [h1, h2]
    exact ⟨safe_of_fate (fate_badBcs hb), safe_of_fate (fate_badBcs hb)⟩

/-- The boundary condition objects whose pointer is lost in the construction: another entry of the same tag follows. -/
def Cfg.Overwritten (c : Cfg) (i : ℕ) : Prop := ∃ l b l', c.bcs = l ++ b :: l' ∧ l.length = i ∧ ∃ e ∈ l', e.1 = b.1

theorem Cfg.overwritten_iff (c : Cfg) (i : ℕ) : c.Overwritten i ↔ i < c.bcs.length ∧ ¬ c.Last i := by
  constructor
  · rintro ⟨l, b, l', hl, rfl, e, he, hb⟩
    refine ⟨by simp [hl], ?_⟩
    rintro ⟨k, b', k', hk, hlen, h⟩
    rw [hl] at hk
    obtain ⟨rfl, h2⟩ := List.append_inj hk hlen.symm
    simp only [List.cons.injEq] at h2
    obtain ⟨rfl, rfl⟩ := h2
    exact h e he hb
  · rintro ⟨h, hn⟩
    refine ⟨c.bcs.take i, c.bcs[i], c.bcs.drop (i + 1), by simp, by simp; omega, ?_⟩
    by_contra hc
    push Not at hc
    exact hn ⟨c.bcs.take i, c.bcs[i], c.bcs.drop (i + 1), by simp, by simp; omega, hc⟩

theorem restOf_iff (c : Cfg) (k : Kind) : restOf c k = true ↔ k = .jflux ∨ k = .jfluxGas ∨ ∃ i, k = .bc i ∧ c.Overwritten i := by
  cases k <;> simp [restOf, Cfg.overwritten_iff]

theorem valid_iff (c : Cfg) : c.Valid ↔ (∀ b ∈ c.bcs, b.2 = true) ∧ (c.implicit = true → c.updOk = true) := ⟨fun h => ⟨h.1, h.2⟩, fun h => ⟨h.1, h.2⟩⟩

theorem run_exc {c : Cfg} (hc : c.Valid) (s m : Course) (out : Bool) :
    (run c s m).2 = (if c.use && s.fin.Breaks then some .num else if m.fin = .conv then none else some .tol) ∧
    (runOutput c s m out).2 = (if c.use && s.fin.Breaks then some .num else if out then none else some .other) := by
  have h9 : (makeSpace .main c.order2 c).2 = none := by rw [makeSpace_ok _ _ _ hc.bcs]
  cases h : (c.use && s.fin.Breaks)
  · have he := execute_ok hc s m h
    by_cases hm : m.fin = .conv <;> cases out <;> simp [run, runOutput, tell, raise, andThen, h9, he, hm, catchTol]
  · have he := execute_broken hc s m h
    simp [run, runOutput, tell, andThen, h9, he, catchTol]

theorem run_bad {c : Cfg} (hc : ¬ c.Valid) (s m : Course) (out : Bool) : (run c s m).2 = some .other ∧ (runOutput c s m out).2 = some .other := by
  by_cases hb : c.BcsOk
  · have hu : ¬ (c.implicit = true → c.updOk = true) := fun h => hc ⟨hb, h⟩
    simp only [Classical.not_imp, Bool.not_eq_true] at hu
    obtain ⟨h1, h2⟩ := run_badUpd hb hu.1 hu.2 s m out
    rw [h1, h2]
    exact ⟨rfl, rfl⟩
  · obtain ⟨h1, h2, h3⟩ := run_badBcs hb s m out
    rw [h1, h2]
    exact ⟨h3, h3⟩

/-- C115, returns: `run` returns normally just when all objects can be constructed, the starting solve (if used) does not break down and the main solve converges; `run_output`
also when the main solve fails, provided the output succeeds. -/
theorem C115_returns (c : Cfg) (s m : Course) (out : Bool) :
    ((run c s m).2 = none ↔ c.Valid ∧ ¬ (c.use = true ∧ (s.fin = .diverged ∨ s.fin = .blew)) ∧ m.fin = .conv) ∧
    ((runOutput c s m out).2 = none ↔ c.Valid ∧ ¬ (c.use = true ∧ (s.fin = .diverged ∨ s.fin = .blew)) ∧ out = true) := by
  by_cases hc : c.Valid
  · rw [(run_exc hc s m out).1, (run_exc hc s m out).2]
    rcases s with ⟨e, n⟩
    rcases m with ⟨e', n'⟩
    cases hu : c.use <;> cases e <;> cases e' <;> cases out <;> simp [End.Breaks, hc]
  · rw [(run_bad hc s m out).1, (run_bad hc s m out).2]
    simp [hc]

/-- C115, what is left after `run` returns normally: of both discretisations the flux of the Jacobian with its gas model and the boundary conditions overwritten by a
later one of the same tag; and if the starting solve did not reach its tolerance, its vectors. Nothing else: all other objects created have been destroyed. -/
theorem C115_run_partial (c : Cfg) (s m : Course) (h : (run c s m).2 = none) (o : Obj) : Live (run c s m).1 o ↔
    o.kind = .jflux ∨ o.kind = .jfluxGas ∨ (∃ i, o.kind = .bc i ∧ c.Overwritten i) ∨
    (o.phase = .starter ∧ c.use = true ∧ s.fin = .tol ∧ (o.kind = .r ∨ o.kind = .dt ∨ o.kind = .du ∧ c.implicit = true)) := by
  obtain ⟨hc, hs, hm⟩ := (C115_returns c s m true).1.1 h
  rcases o with ⟨p, k⟩
  have hb : (c.use && s.fin.Breaks) = false := by
    by_contra hb
    simp only [Bool.not_eq_false, Bool.and_eq_true] at hb
    refine hs ⟨hb.1, ?_⟩
    cases he : s.fin <;> simp [he, End.Breaks] at hb ⊢
  cases p
  · rw [fate_live_iff (fate_run hc s m k).1, leftS, hb, if_neg (by simp), Bool.or_eq_true, restOf_iff]
    have : (c.use && s.fin.Fails && vec c k) = true ↔ c.use = true ∧ s.fin = .tol ∧ (k = .r ∨ k = .dt ∨ k = .du ∧ c.implicit = true) := by
      cases hu : c.use
      · simp
      · simp only [hu, Bool.true_and] at hb
        cases he : s.fin <;> simp [he, End.Breaks, End.Fails] at hb ⊢
        cases k <;> simp [vec]
    rw [this]
    simp only [true_and, or_assoc]
  · rw [fate_live_iff (fate_run hc s m k).2, hb, if_neg (by simp), if_pos hm, restOf_iff]
    simp

/-- C115, what is left after `run_output` returns normally: as for `run`, and if the main solve failed also its linear problem, update scheme and vectors. -/
theorem C115_output_partial (c : Cfg) (s m : Course) (out : Bool) (h : (runOutput c s m out).2 = none) (o : Obj) : Live (runOutput c s m out).1 o ↔
    o.kind = .jflux ∨ o.kind = .jfluxGas ∨ (∃ i, o.kind = .bc i ∧ c.Overwritten i) ∨
    (o.phase = .starter ∧ c.use = true ∧ s.fin = .tol ∧ (o.kind = .r ∨ o.kind = .dt ∨ o.kind = .du ∧ c.implicit = true)) ∨
    (o.phase = .main ∧ (m.fin = .tol ∨ m.fin = .diverged ∨ m.fin = .blew) ∧
      (o.kind = .M ∨ o.kind = .ksp ∨ (o.kind = .A ∨ o.kind = .ctx) ∧ c.mf = true ∨ (o.kind = .upd ∨ o.kind = .du) ∧ c.implicit = true ∨ o.kind = .r ∨ o.kind = .dt)) := by
  obtain ⟨hc, hs, rfl⟩ := (C115_returns c s m out).2.1 h
  rcases o with ⟨p, k⟩
  have hb : (c.use && s.fin.Breaks) = false := by
    by_contra hb
    simp only [Bool.not_eq_false, Bool.and_eq_true] at hb
    refine hs ⟨hb.1, ?_⟩
    cases he : s.fin <;> simp [he, End.Breaks] at hb ⊢
  cases p
  · rw [fate_live_iff (fate_runOutput hc s m true k).1, leftS, hb, if_neg (by simp), Bool.or_eq_true, restOf_iff]
    have : (c.use && s.fin.Fails && vec c k) = true ↔ c.use = true ∧ s.fin = .tol ∧ (k = .r ∨ k = .dt ∨ k = .du ∧ c.implicit = true) := by
      cases hu : c.use
      · simp
      · simp only [hu, Bool.true_and] at hb
        cases he : s.fin <;> simp [he, End.Breaks, End.Fails] at hb ⊢
        cases k <;> simp [vec]
    rw [this]
    simp [or_assoc]
  · rw [fate_live_iff (fate_runOutput hc s m true k).2, hb, if_neg (by simp), if_pos rfl, Bool.or_eq_true, restOf_iff]
    have : (m.fin.Fails && (lin c k || vec c k)) = true ↔ (m.fin = .tol ∨ m.fin = .diverged ∨ m.fin = .blew) ∧
        (k = .M ∨ k = .ksp ∨ (k = .A ∨ k = .ctx) ∧ c.mf = true ∨ (k = .upd ∨ k = .du) ∧ c.implicit = true ∨ k = .r ∨ k = .dt) := by
      cases he : m.fin <;> simp [End.Fails] <;> cases k <;> simp [lin, vec]
    rw [this]
    simp [or_assoc]

/-- C115, failed runs: once the main discretisation exists, it is destroyed just when the call returns normally: any exception leaving `run` or `run_output` leaves it behind. -/
theorem C115_space (c : Cfg) (s m : Course) (out : Bool) (hb : ∀ b ∈ c.bcs, b.2 = true) :
    (Live (run c s m).1 ⟨.main, .space⟩ ↔ (run c s m).2 ≠ none) ∧ (Live (runOutput c s m out).1 ⟨.main, .space⟩ ↔ (runOutput c s m out).2 ≠ none) := by
  by_cases hu : c.implicit = true → c.updOk = true
  · have hc : c.Valid := ⟨hb, hu⟩
    rw [fate_live_iff (fate_run hc s m .space).2, fate_live_iff (fate_runOutput hc s m out .space).2, (run_exc hc s m out).1, (run_exc hc s m out).2]
    cases (c.use && s.fin.Breaks)
    · by_cases hm : m.fin = .conv <;> cases out <;> cases hf : m.fin.Fails <;> simp [hm, hf, partOf, restOf, leftM, linear, lin, vec]
    · simp [partOf]
  · simp only [Classical.not_imp, Bool.not_eq_true] at hu
    obtain ⟨h1, h2⟩ := run_badUpd hb hu.1 hu.2 s m out
    rw [h1, h2, fate_live_iff (fate_space_starter hb s .space)]
    simp [partOf]

/-- C115, the starting solve: its discretisation is left behind just when an exception leaves it, that is when the update scheme is invalid or the starting solve is used and breaks
down. -/
theorem C115_starter (c : Cfg) (s m : Course) (hb : ∀ b ∈ c.bcs, b.2 = true) :
    Live (run c s m).1 ⟨.starter, .space⟩ ↔ (c.implicit = true ∧ c.updOk = false) ∨ (c.use = true ∧ (s.fin = .diverged ∨ s.fin = .blew)) := by
  by_cases hu : c.implicit = true → c.updOk = true
  · have hc : c.Valid := ⟨hb, hu⟩
    rw [fate_live_iff (fate_run hc s m .space).1, leftS]
    have hu' : ¬ (c.implicit = true ∧ c.updOk = false) := fun h => by simp [hu h.1] at h
    cases hx : c.use <;> cases he : s.fin <;> simp [End.Breaks, End.Fails, inLoop, partOf, restOf, vec] <;> simpa using hu
  · simp only [Classical.not_imp, Bool.not_eq_true] at hu
    obtain ⟨h1, -⟩ := run_badUpd hb hu.1 hu.2 s m true
    have : fate ⟨.starter, .space⟩ false (run c s m).1 = some true := by
      rw [h1]
      simp only
      rw [fate_append, fate_space_other hb, Option.bind_some, fate_badUpd hb hu.1 hu.2]
      rfl
    rw [fate_live_iff this]
    simp [hu]

/-- C115, refuted: the flux of the Jacobian of the main discretisation (src/spatial/flow_spatial.cpp:320) is never destroyed, in any run which constructs it. -/
theorem C115_jacobianFlux_refuted (c : Cfg) (s m : Course) (out : Bool) (hb : ∀ b ∈ c.bcs, b.2 = true) :
    Live (run c s m).1 ⟨.main, .jflux⟩ ∧ Live (runOutput c s m out).1 ⟨.main, .jflux⟩ := by
  by_cases hu : c.implicit = true → c.updOk = true
  · have hc : c.Valid := ⟨hb, hu⟩
    rw [fate_live_iff (fate_run hc s m .jflux).2, fate_live_iff (fate_runOutput hc s m out .jflux).2]
    cases (c.use && s.fin.Breaks)
    · by_cases hm : m.fin = .conv <;> cases out <;> cases hf : m.fin.Fails <;> simp [hm, partOf, restOf, leftM, linear, hf]
    · simp [partOf]
  · simp only [Classical.not_imp, Bool.not_eq_true] at hu
    obtain ⟨h1, h2⟩ := run_badUpd hb hu.1 hu.2 s m out
    rw [h1, h2, fate_live_iff (fate_space_starter hb s .jflux)]
    simp [partOf]

/-- C115, refuted: a call of `run_output` whose main solve stops at its maximal number of iterations returns normally and leaves the linear solver and the matrix behind, though
`execute_main` is documented to destroy all implicit solver objects after it is done (src/utilities/casesolvers.hpp:184-188). -/
theorem C115_main_refuted : ∃ c s m, (runOutput c s m true).2 = none ∧ Live (runOutput c s m true).1 ⟨.main, .ksp⟩ ∧ Live (runOutput c s m true).1 ⟨.main, .M⟩ := by
  let c : Cfg := ⟨true, false, false, false, false, true, [(2, true), (4, true)]⟩
  have h : (runOutput c ⟨.nothing, 0⟩ ⟨.tol, 100⟩ true).2 = none := (C115_returns c _ _ true).2.2 ⟨⟨by simp [c, Cfg.BcsOk], by simp [c]⟩, by simp [c], rfl⟩
  exact ⟨c, ⟨.nothing, 0⟩, ⟨.tol, 100⟩, h, (C115_output_partial c _ _ true h _).2 (by simp), (C115_output_partial c _ _ true h _).2 (by simp)⟩

/-! ## Concrete cases -/

/-- A converging explicit second-order case with two boundaries and a starting solve which stops at its maximal number of iterations. -/
def plain : Cfg := ⟨false, false, true, false, true, false, [(2, true), (4, true)]⟩

/-- The same, implicit and matrix-free, with three boundary entries, two of them for one tag. -/
def repeated : Cfg := ⟨true, true, true, true, true, true, [(2, true), (4, true), (2, true)]⟩

example : plain.Valid := ⟨by simp [plain, Cfg.BcsOk], by simp [plain]⟩

example : repeated.Valid := ⟨by simp [repeated, Cfg.BcsOk], by simp [repeated]⟩

/-- `C115_returns` and `C115_run_partial` applied: the run returns normally, and of the main solve only the flux of the Jacobian and its gas model are left. -/
example : (run plain ⟨.tol, 50⟩ ⟨.conv, 1000⟩).2 = none ∧ ∀ k, Live (run plain ⟨.tol, 50⟩ ⟨.conv, 1000⟩).1 ⟨.main, k⟩ ↔ k = .jflux ∨ k = .jfluxGas := by
  have h : (run plain ⟨.tol, 50⟩ ⟨.conv, 1000⟩).2 = none := (C115_returns _ _ _ true).1.2 ⟨⟨by simp [plain, Cfg.BcsOk], by simp [plain]⟩, by simp, rfl⟩
  refine ⟨h, fun k => ?_⟩
  rw [C115_run_partial _ _ _ h]
  have : ∀ i, ¬ plain.Overwritten i := by
    intro i
    rw [Cfg.overwritten_iff]
    rintro ⟨hi, hn⟩
    simp only [plain, List.length_cons, List.length_nil] at hi
    have : i = 0 ∨ i = 1 := by omega
    rcases this with rfl | rfl
    · exact hn ⟨[], (2, true), [(4, true)], rfl, rfl, by simp⟩
    · exact hn ⟨[(2, true)], (4, true), [], rfl, rfl, by simp⟩
  simp [this]

/-- The first boundary condition for a repeated tag is left behind, the others are not. -/
example : Live (run repeated ⟨.conv, 5⟩ ⟨.conv, 7⟩).1 ⟨.main, .bc 0⟩ ∧ ¬ Live (run repeated ⟨.conv, 5⟩ ⟨.conv, 7⟩).1 ⟨.main, .bc 2⟩ := by
  have h : (run repeated ⟨.conv, 5⟩ ⟨.conv, 7⟩).2 = none := (C115_returns _ _ _ true).1.2 ⟨⟨by simp [repeated, Cfg.BcsOk], by simp [repeated]⟩, by simp, rfl⟩
  constructor
  · rw [C115_run_partial _ _ _ h]
    exact Or.inr (Or.inr (Or.inl ⟨0, rfl, [], (2, true), [(4, true), (2, true)], rfl, rfl, (2, true), by simp, rfl⟩))
  · rw [C115_run_partial _ _ _ h]
    simp only [reduceCtorEq, Kind.bc.injEq, exists_eq_left', false_or, or_false, false_and, and_false]
    rw [Cfg.overwritten_iff]
    exact fun hn => hn.2 ⟨[(2, true), (4, true)], (2, true), [], rfl, rfl, by simp⟩

/-- `C115_safe` says something: destroying an object twice, or using it afterwards, is not safe. -/
example : ¬ Safe [.make ⟨.main, .ksp⟩, .free ⟨.main, .ksp⟩, .use ⟨.main, .ksp⟩] ∧ ¬ Safe [.make ⟨.main, .ksp⟩, .free ⟨.main, .ksp⟩, .free ⟨.main, .ksp⟩] :=
  ⟨fun h => not_live_free [.make ⟨.main, .ksp⟩] _ (h.1 [.make ⟨.main, .ksp⟩, .free ⟨.main, .ksp⟩] [] ⟨.main, .ksp⟩ rfl),
    fun h => not_live_free [.make ⟨.main, .ksp⟩] _ (h.2.1 [.make ⟨.main, .ksp⟩, .free ⟨.main, .ksp⟩] [] ⟨.main, .ksp⟩ rfl)⟩

/-- `C115_output_partial`, `C115_space`, `C115_starter` and `C115_jacobianFlux_refuted` applied to the matrix-free case, with a main solve which blows up and a starting solve which
diverges. -/
example : Live (runOutput repeated ⟨.conv, 5⟩ ⟨.blew, 7⟩ true).1 ⟨.main, .ctx⟩ ∧ Live (run repeated ⟨.conv, 5⟩ ⟨.blew, 7⟩).1 ⟨.main, .space⟩ ∧
    ¬ Live (runOutput repeated ⟨.conv, 5⟩ ⟨.blew, 7⟩ true).1 ⟨.main, .space⟩ ∧ Live (run repeated ⟨.diverged, 5⟩ ⟨.conv, 7⟩).1 ⟨.starter, .space⟩ ∧
    Live (run repeated ⟨.diverged, 5⟩ ⟨.conv, 7⟩).1 ⟨.main, .jflux⟩ := by
  have hv : repeated.Valid := ⟨by simp [repeated, Cfg.BcsOk], by simp [repeated]⟩
  have h : (runOutput repeated ⟨.conv, 5⟩ ⟨.blew, 7⟩ true).2 = none := (C115_returns _ _ _ true).2.2 ⟨hv, by simp, rfl⟩
  have h' : (run repeated ⟨.conv, 5⟩ ⟨.blew, 7⟩).2 ≠ none := fun h => by simpa using ((C115_returns _ _ _ true).1.1 h).2.2
  exact ⟨(C115_output_partial _ _ _ _ h _).2 (by simp [repeated]), (C115_space _ _ _ true hv.bcs).1.2 h', fun hl => (C115_space _ _ _ true hv.bcs).2.1 hl h,
    (C115_starter _ _ _ hv.bcs).2 (by simp [repeated]), (C115_jacobianFlux_refuted _ _ _ true hv.bcs).1⟩

end FVENS.Life
