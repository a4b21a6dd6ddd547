import Verif.Life.Left

/-! # Which objects a whole case leaves behind -/

namespace FVENS.Life

/-- The vectors of a solve. -/
def vec (c : Cfg) : Kind → Bool
  | .r | .dt => true
  | .du => c.implicit
  | _ => false

/-- The linear problem and the update scheme. -/
def lin (c : Cfg) : Kind → Bool
  | .M | .ksp => true
  | .A | .ctx => c.mf
  | .upd => c.implicit
  | _ => false

/-- A solve which ends by an exception. -/
def End.Fails : End → Bool
  | .tol | .diverged | .blew => true
  | _ => false

/-- A solve which ends by an exception other than a `Tolerance_error`. -/
def End.Breaks : End → Bool
  | .diverged | .blew => true
  | _ => false

/-- What exists before the pseudo-time solver is constructed. -/
def linear (o2 : Bool) (c : Cfg) (k : Kind) : Bool := partOf o2 c k || lin c k

/-- The part of `linear` which is there before the update scheme. -/
def lhsOnly (o2 : Bool) (c : Cfg) : Kind → Bool
  | .M | .ksp => true
  | .A | .ctx => c.mf
  | k => partOf o2 c k

theorem fate_lhsOnly (p : Phase) (o2 : Bool) (c : Cfg) (k : Kind) : fate ⟨p, k⟩ (partOf o2 c k) (makeLhs p c) = some (lhsOnly o2 c k) := by
  rw [fate_makeLhs]
  cases k <;> rfl

theorem fate_upd (p : Phase) (o2 : Bool) (c : Cfg) (k : Kind) (h : c.implicit = true) : fate ⟨p, k⟩ (lhsOnly o2 c k) [Ev.make ⟨p, .upd⟩] = some (linear o2 c k) := by
  cases k <;> simp [fate, lhsOnly, linear, lin, partOf, h]

theorem lhsOnly_explicit (o2 : Bool) (c : Cfg) (k : Kind) (h : c.implicit = false) : lhsOnly o2 c k = linear o2 c k := by
  cases k <;> simp [lhsOnly, linear, lin, partOf, h]

theorem fate_makeTime (p : Phase) (o2 : Bool) (c : Cfg) (k : Kind) : fate ⟨p, k⟩ (linear o2 c k) [Ev.make ⟨p, .time⟩] = some (ready o2 c k) := by
  cases k <;> simp [fate, ready, linear, lin, partOf]

/-- After a solve and the destruction of the pseudo-time solver. -/
theorem fate_freeTime (p : Phase) (o2 : Bool) (c : Cfg) (e : End) (k : Kind) :
    fate ⟨p, k⟩ (after o2 c e k) [Ev.free ⟨p, .time⟩] = some (linear o2 c k || (e.Fails && vec c k)) := by
  cases e <;> cases k <;> simp [fate, after, ready, inLoop, linear, lin, partOf, vec, End.Fails]

theorem fate_useTime (p : Phase) (o2 : Bool) (c : Cfg) (e : End) (k : Kind) : fate ⟨p, k⟩ (after o2 c e k) [Ev.use ⟨p, .time⟩] = some (after o2 c e k) := by
  cases e <;> cases k <;> simp [fate, after, ready, inLoop]

theorem fate_freeLin (p : Phase) (o2 : Bool) (c : Cfg) (v : Bool) (k : Kind) :
    fate ⟨p, k⟩ (linear o2 c k || (v && vec c k)) ((if c.implicit then [Ev.free ⟨p, .upd⟩] else []) ++ freeLhs p c) = some (partOf o2 c k || (v && vec c k)) := by
  cases hi : c.implicit <;> cases hm : c.mf <;> cases k <;> simp [freeLhs, fate, linear, lin, partOf, vec, hi, hm]

theorem fate_freeSpace' (p : Phase) (o2 : Bool) (c : Cfg) (v : Bool) (k : Kind) :
    fate ⟨p, k⟩ (partOf o2 c k || (v && vec c k)) (freeSpace p o2 c) = some (restOf c k || (v && vec c k)) := by
  by_cases h : vec c k = true
  · have hp : partOf o2 c k = false ∧ restOf c k = false := by cases k <;> simp [vec, partOf, restOf] at h ⊢
    rw [hp.1, hp.2]
    cases k <;> simp [vec] at h <;> simp [freeSpace, fate_append, fate, fate_ite, fate_onBcs_free]
  · simp only [Bool.not_eq_true] at h
    simpa [h] using fate_freeSpace p o2 c k

/-! ## The starting solve -/

/-- The settings allow the construction of all objects. -/
structure Cfg.Valid (c : Cfg) : Prop where
  bcs : c.BcsOk
  upd : c.implicit = true → c.updOk = true

theorem makeUpd_valid (p : Phase) {c : Cfg} (hc : c.Valid) : makeUpd p c = (if c.implicit then [Ev.make ⟨p, .upd⟩] else [], none) := by
  unfold makeUpd
  cases h : c.implicit
  · rfl
  · simp [hc.upd h, tell]

theorem fate_makeUpd (p : Phase) (o2 : Bool) {c : Cfg} (hc : c.Valid) (k : Kind) : fate ⟨p, k⟩ (lhsOnly o2 c k) (makeUpd p c).1 = some (linear o2 c k) := by
  rw [makeUpd_valid p hc]
  cases h : c.implicit
  · simp [fate, lhsOnly_explicit o2 c k h]
  · simpa using fate_upd p o2 c k h

theorem solve_exc (p : Phase) (o2 : Bool) (c : Cfg) (s : Course) :
    (solve p o2 c s).2 = match s.fin with | .nothing | .conv => none | .tol => some .tol | .diverged | .blew => some .num := by
  rcases s with ⟨e, n⟩
  cases e <;> rfl

/-- What the starting solve leaves of its objects. -/
noncomputable def leftS (c : Cfg) (s : Course) (k : Kind) : Bool :=
  if c.use && s.fin.Breaks then inLoop false c k else restOf c k || (c.use && s.fin.Fails && vec c k)

theorem starter_exc {c : Cfg} (hc : c.Valid) (s : Course) : (starter c s).2 = if c.use && s.fin.Breaks then some .num else none := by
  rcases s with ⟨e, n⟩
  simp only [starter, makeSpace_ok _ _ _ hc.bcs, makeUpd_valid _ hc]
  cases hu : c.use <;> cases e <;> simp [tell, andThen, catchTol, solve_exc, End.Breaks]

theorem fate_starter {c : Cfg} (hc : c.Valid) (s : Course) (k : Kind) : fate ⟨.starter, k⟩ false (starter c s).1 = some (leftS c s k) := by
  rcases s with ⟨e, n⟩
  have h1 := fate_makeSpace .starter false c hc.bcs k
  have h2 := fate_lhsOnly .starter false c k
  have h3 := fate_makeUpd .starter false hc k
  have h4 := fate_makeTime .starter false c k
  have h5 := fate_solve .starter false c ⟨e, n⟩ k
  have h6 := fate_freeTime .starter false c e k
  have h7 := fun v => fate_freeLin .starter false c v k
  have h8 := fun v => fate_freeSpace' .starter false c v k
  have h9 : (makeSpace .starter false c).2 = none := by rw [makeSpace_ok _ _ _ hc.bcs]
  have h10 : (makeUpd .starter c).2 = none := by rw [makeUpd_valid _ hc]
  have h0 : fate ⟨.starter, k⟩ false [Ev.use ⟨.main, .space⟩] = some false := by simp [fate]
  have hn : ∀ b, fate ⟨.starter, k⟩ b [] = some b := fun _ => rfl
  have h7' := h7 false
  have h8' := h8 false
  simp only [Bool.false_and, Bool.or_false, fate_append] at h7' h8'
  have h7t := h7 true
  have h8t := h8 true
  simp only [Bool.true_and, fate_append] at h7t h8t
  cases hu : c.use
  · simp only [starter, hu, tell, andThen, h9, h10, fate_append, h0, h1, h2, h3, hn, Option.bind_some, leftS, Bool.false_and, if_false, Bool.or_false, Bool.false_eq_true, h7', h8']
  · cases e <;>
      simp only [starter, hu, tell, andThen, h9, h10, fate_append, h0, h1, h2, h3, h4, h5, h6, hn, Option.bind_some, leftS, Bool.false_and, Bool.true_and, if_false, if_true,
        Bool.or_false, Bool.false_eq_true, catchTol, solve_exc, End.Breaks, End.Fails, h7', h8', h7t, h8t] <;> rfl

/-- The starting solve does nothing to the main discretisation but use it. -/
theorem fate_starter_main (c : Cfg) (hc : c.BcsOk) (s : Course) (k : Kind) (b : Bool) (hb : k = .space → b = true) : fate ⟨.main, k⟩ b (starter c s).1 = some b := by
  rcases s with ⟨e, n⟩
  have ho := fun b' => fate_otherPhase (p := .main) (p' := .starter) (by simp) k b' false c
  have hs : ∀ b', fate ⟨.main, k⟩ b' (steps .starter false c n) = some b' := fun b' => fate_steps (ho b').2.2.2.2.2.2.2 n
  have h0 : fate ⟨.main, k⟩ b [Ev.use ⟨.main, .space⟩] = some b := by
    by_cases hk : k = .space
    · subst hk; simp [fate, hb rfl]
    · simp [fate, Ne.symm hk]
  have hn : ∀ b, fate ⟨.main, k⟩ b [] = some b := fun _ => rfl
  have h1 : ∀ b', fate ⟨.main, k⟩ b' (makeSpace .starter false c).1 = some b' := by
    intro b'
    rw [makeSpace_ok _ _ _ hc]
    simp [fate_append, fate, fate_bcMakes]
  have h9 : (makeSpace .starter false c).2 = none := by rw [makeSpace_ok _ _ _ hc]
  have ht : ∀ b' x, fate ⟨.main, k⟩ b' [Ev.use ⟨.starter, x⟩] = some b' ∧ fate ⟨.main, k⟩ b' [Ev.make ⟨.starter, x⟩] = some b' ∧ fate ⟨.main, k⟩ b' [Ev.free ⟨.starter, x⟩] = some b' := by
    intro b' x; simp [fate]
  cases hi : c.implicit <;> cases hv : c.updOk <;> cases hu : c.use <;> cases e <;>
    simp only [starter, hi, hv, hu, makeUpd, tell, raise, andThen, h9, fate_append, h0, h1, hn, Option.bind_some, ho, hs, ht, if_true, if_false, Bool.false_eq_true, catchTol, solve, List.append_nil]

/-! ## The main solve -/

/-- What the main solve leaves of its objects, before the destruction of the discretisation. -/
def leftM (c : Cfg) (m : Course) (k : Kind) : Bool :=
  if m.fin.Fails then linear c.order2 c k || vec c k else partOf c.order2 c k

theorem mainSolve_exc {c : Cfg} (hc : c.Valid) (m : Course) : (mainSolve c m).2 = if m.fin = .conv then none else some .tol := by
  rcases m with ⟨e, n⟩
  simp only [mainSolve, makeUpd_valid _ hc]
  cases e <;> simp [tell, raise, andThen, solve_exc]

theorem fate_mainSolve {c : Cfg} (hc : c.Valid) (m : Course) (k : Kind) : fate ⟨.main, k⟩ (partOf c.order2 c k) (mainSolve c m).1 = some (leftM c m k) := by
  rcases m with ⟨e, n⟩
  have h2 := fate_lhsOnly .main c.order2 c k
  have h3 := fate_makeUpd .main c.order2 hc k
  have h4 := fate_makeTime .main c.order2 c k
  have h5 := fate_solve .main c.order2 c ⟨e, n⟩ k
  have h6 := fate_freeTime .main c.order2 c e k
  have h6' := fate_useTime .main c.order2 c e k
  have h7' := fate_freeLin .main c.order2 c false k
  simp only [Bool.false_and, Bool.or_false, fate_append] at h7'
  have h10 : (makeUpd .main c).2 = none := by rw [makeUpd_valid _ hc]
  have hn : ∀ b, fate ⟨.main, k⟩ b [] = some b := fun _ => rfl
  have h12 : ([Ev.use ⟨.main, .time⟩, .free ⟨.main, .time⟩] : List Ev) = [.use ⟨.main, .time⟩] ++ [.free ⟨.main, .time⟩] := rfl
  cases e <;>
    simp only [mainSolve, h12, tell, raise, andThen, h10, fate_append, h2, h3, h4, h5, h6, h6', h7', hn, Option.bind_some, leftM, solve_exc, End.Fails, Bool.false_and, Bool.true_and, Bool.or_false,
      if_false, if_true, Bool.false_eq_true, reduceCtorEq]

theorem fate_mainSolve_starter (c : Cfg) (m : Course) (k : Kind) (b : Bool) : fate ⟨.starter, k⟩ b (mainSolve c m).1 = some b := by
  rcases m with ⟨e, n⟩
  have ho := fun b' => fate_otherPhase (p := .starter) (p' := .main) (by simp) k b' c.order2 c
  have hs : ∀ b', fate ⟨.starter, k⟩ b' (steps .main c.order2 c n) = some b' := fun b' => fate_steps (ho b').2.2.2.2.2.2.2 n
  have hn : ∀ b, fate ⟨.starter, k⟩ b [] = some b := fun _ => rfl
  have ht : ∀ b' x, fate ⟨.starter, k⟩ b' [Ev.use ⟨.main, x⟩] = some b' ∧ fate ⟨.starter, k⟩ b' [Ev.make ⟨.main, x⟩] = some b' ∧ fate ⟨.starter, k⟩ b' [Ev.free ⟨.main, x⟩] = some b' := by
    intro b' x; simp [fate]
  have h12 : ([Ev.use ⟨.main, .time⟩, .free ⟨.main, .time⟩] : List Ev) = [.use ⟨.main, .time⟩] ++ [.free ⟨.main, .time⟩] := rfl
  cases hi : c.implicit <;> cases hv : c.updOk <;> cases e <;>
    simp only [mainSolve, h12, hi, hv, makeUpd, tell, raise, andThen, fate_append, hn, Option.bind_some, ho, hs, ht, if_true, if_false, Bool.false_eq_true, solve, List.append_nil, reduceCtorEq]

end FVENS.Life
