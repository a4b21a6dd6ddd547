import Verif.FV.Assemble
import Mathlib.Algebra.BigOperators.Group.List.Basic

/-!
# Parallel loops with shared accumulation (C42)

A parallel loop (`#pragma omp parallel for`) is a set of threads, each with a list of updates `loc += amount`. An update under
`#pragma omp atomic update` is one step; any other is a load followed later by a store, and steps of other threads may come
between. Memory is sequentially consistent (data races are thus given one of their possible outcomes; in C++ they
are undefined behaviour). Sums are exact.
-/

namespace FVENS
namespace FV

open Msh

/-- An update `loc += amt`. -/
structure Upd (L A : Type*) where
  loc : L
  amt : A
  atomic : Bool

/-- A thread: updates still to be performed, and the value loaded for the first of them if it has been started. -/
structure Thread (L A : Type*) where
  todo : List (Upd L A)
  reg : Option A

/-- Shared memory and threads. -/
structure Mach (L A : Type*) where
  mem : L → A
  th : ℕ → Thread L A

variable {L A : Type*} [DecidableEq L] [AddCommGroup A]

/-- One step of one thread. -/
inductive TStep : Mach L A → Mach L A → Prop
  | atomic (c : Mach L A) (t : ℕ) (u : Upd L A) (rest : List (Upd L A)) (h : c.th t = ⟨u :: rest, none⟩) (ha : u.atomic = true) :
      TStep c ⟨Function.update c.mem u.loc (c.mem u.loc + u.amt), Function.update c.th t ⟨rest, none⟩⟩
  | load (c : Mach L A) (t : ℕ) (u : Upd L A) (rest : List (Upd L A)) (h : c.th t = ⟨u :: rest, none⟩) (ha : u.atomic = false) :
      TStep c ⟨c.mem, Function.update c.th t ⟨u :: rest, some (c.mem u.loc)⟩⟩
  | store (c : Mach L A) (t : ℕ) (u : Upd L A) (rest : List (Upd L A)) (v : A) (h : c.th t = ⟨u :: rest, some v⟩) :
      TStep c ⟨Function.update c.mem u.loc (v + u.amt), Function.update c.th t ⟨rest, none⟩⟩

/-- Executions from given memory and thread programs. -/
inductive TReach (mem : L → A) (prog : ℕ → List (Upd L A)) : Mach L A → Prop
  | start : TReach mem prog ⟨mem, fun t => ⟨prog t, none⟩⟩
  | step {c c' : Mach L A} : TReach mem prog c → TStep c c' → TReach mem prog c'

/-- All threads are through (the barrier at the end of the loop). -/
def Finished (c : Mach L A) : Prop := ∀ t, (c.th t).todo = []

/-- Sum of the updates of a list to a location. -/
def amtAt (l : L) (us : List (Upd L A)) : A := (us.map fun u => if u.loc = l then u.amt else 0).sum

omit [AddCommGroup A] [DecidableEq L] in
theorem update_th {c : ℕ → Thread L A} {t : ℕ} {x : Thread L A} (t' : ℕ) :
    Function.update c t x t' = if t' = t then x else c t' := by
  by_cases h : t' = t
  · subst h; simp
  · simp [h]

/-- No location updated without protection by one thread is updated by another. -/
def RaceFree (prog : ℕ → List (Upd L A)) : Prop :=
  ∀ t, ∀ u ∈ prog t, u.atomic = false → ∀ t', t' ≠ t → ∀ u' ∈ prog t', u'.loc ≠ u.loc

structure TInv (mem : L → A) (prog : ℕ → List (Upd L A)) (n : ℕ) (c : Mach L A) : Prop where
  suffix : ∀ t, (c.th t).todo <:+ prog t
  reg : ∀ t v, (c.th t).reg = some v → ∃ u rest, (c.th t).todo = u :: rest ∧ u.atomic = false ∧ v = c.mem u.loc
  sum : ∀ l, c.mem l + ∑ t ∈ Finset.range n, amtAt l (c.th t).todo = mem l + ∑ t ∈ Finset.range n, amtAt l (prog t)

theorem sum_todo {n t : ℕ} (ht : t < n) {th : ℕ → Thread L A} {u : Upd L A} {rest : List (Upd L A)} (h : (th t).todo = u :: rest)
    (x : Option A) (l : L) :
    (if u.loc = l then u.amt else 0) + ∑ t' ∈ Finset.range n, amtAt l (Function.update th t ⟨rest, x⟩ t').todo =
      ∑ t' ∈ Finset.range n, amtAt l (th t').todo := by
  rw [← Finset.add_sum_erase _ _ (Finset.mem_range.2 ht), ← Finset.add_sum_erase (Finset.range n) (fun t' => amtAt l (th t').todo) (Finset.mem_range.2 ht)]
  simp only [Function.update_self, h]
  rw [← add_assoc]
  congr 1
  exact Finset.sum_congr rfl fun t' ht' => by rw [Function.update_of_ne (Finset.ne_of_mem_erase ht')]

theorem tinv_reach {mem : L → A} {prog : ℕ → List (Upd L A)} {n : ℕ} (hn : ∀ t, n ≤ t → prog t = []) (hrf : RaceFree prog)
    {c : Mach L A} (h : TReach mem prog c) : TInv mem prog n c := by
  induction h with
  | start => exact ⟨fun _ => List.suffix_rfl, (fun _ _ h => by cases h), fun _ => rfl⟩
  | @step c c' hc hs ih =>
    have hlt : ∀ t, (c.th t).todo ≠ [] → t < n := fun t h => by
      by_contra hge
      have := ih.suffix t
      rw [hn t (by omega)] at this
      exact h (List.suffix_nil.1 this)
    -- the value loaded by one thread survives the updates of the others
    have hkeep : ∀ t u rest, (c.th t).todo = u :: rest → ∀ w t' v, t' ≠ t → (c.th t').reg = some v →
        ∃ u' rest', (c.th t').todo = u' :: rest' ∧ u'.atomic = false ∧ v = Function.update c.mem u.loc w u'.loc := by
      intro t u rest htd w t' v hne hreg
      obtain ⟨u', rest', h1, h2, h3⟩ := ih.reg t' v hreg
      refine ⟨u', rest', h1, h2, ?_⟩
      have hu : u ∈ prog t := (ih.suffix t).subset (by rw [htd]; simp)
      have hu' : u' ∈ prog t' := (ih.suffix t').subset (by rw [h1]; simp)
      rw [Function.update_of_ne (hrf t' u' hu' h2 t hne.symm u hu).symm]
      exact h3
    cases hs with
    | atomic t u rest hth ha =>
      have htd : (c.th t).todo = u :: rest := by rw [hth]
      refine ⟨fun t' => ?_, fun t' v hv => ?_, fun l => ?_⟩
      · simp only [update_th]
        split_ifs with h
        · subst h
          have := ih.suffix t'
          rw [htd] at this
          exact (List.suffix_cons u rest).trans this
        · exact ih.suffix t'
      · simp only [update_th] at hv ⊢
        split_ifs at hv ⊢ with h
        exact hkeep t u rest htd _ t' v h hv
      · rw [← ih.sum l, ← sum_todo (hlt t (by rw [htd]; simp)) htd none l, ← add_assoc]
        congr 1
        by_cases h : l = u.loc
        · subst h; simp
        · simp [h, Ne.symm h]
    | load t u rest hth ha =>
      have htd : (c.th t).todo = u :: rest := by rw [hth]
      have htodo : ∀ t', (Function.update c.th t ⟨u :: rest, some (c.mem u.loc)⟩ t').todo = (c.th t').todo := by
        intro t'
        rw [update_th]
        split_ifs with h
        · subst h; rw [htd]
        · rfl
      refine ⟨fun t' => ?_, fun t' v hv => ?_, fun l => ?_⟩
      · simp only [htodo]; exact ih.suffix t'
      · simp only [htodo]
        simp only [update_th] at hv
        split_ifs at hv with h
        · subst h
          exact ⟨u, rest, htd, ha, (Option.some.inj hv).symm⟩
        · exact ih.reg t' v hv
      · simp only [htodo]; exact ih.sum l
    | store t u rest v0 hth =>
      have htd : (c.th t).todo = u :: rest := by rw [hth]
      obtain ⟨u1, rest1, g1, g2, g3⟩ := ih.reg t v0 (by rw [hth])
      rw [htd] at g1
      cases g1
      refine ⟨fun t' => ?_, fun t' v hv => ?_, fun l => ?_⟩
      · simp only [update_th]
        split_ifs with h
        · subst h
          have := ih.suffix t'
          rw [htd] at this
          exact (List.suffix_cons u rest).trans this
        · exact ih.suffix t'
      · simp only [update_th] at hv ⊢
        split_ifs at hv ⊢ with h
        exact hkeep t u rest htd _ t' v h hv
      · rw [← ih.sum l, ← sum_todo (hlt t (by rw [htd]; simp)) htd none l, ← add_assoc, g3]
        congr 1
        by_cases h : l = u.loc
        · subst h; simp
        · simp [h, Ne.symm h]

/-- C42 (general): if unprotected updates touch only locations private to their thread, every execution of the parallel
loop ends with each location increased by the sum of all its updates. -/
theorem C42_race_free {mem : L → A} {prog : ℕ → List (Upd L A)} {n : ℕ} (hn : ∀ t, n ≤ t → prog t = []) (hrf : RaceFree prog)
    {c : Mach L A} (h : TReach mem prog c) (hf : Finished c) (l : L) :
    c.mem l = mem l + ∑ t ∈ Finset.range n, amtAt l (prog t) := by
  rw [← (tinv_reach hn hrf h).sum l, Finset.sum_eq_zero (fun t _ => by rw [hf t]; rfl), add_zero]

/-- C42 (general): with atomic updates only, every execution gives the sequential result. -/
theorem C42_atomic {mem : L → A} {prog : ℕ → List (Upd L A)} {n : ℕ} (hn : ∀ t, n ≤ t → prog t = [])
    (ha : ∀ t, ∀ u ∈ prog t, u.atomic = true)
    {c : Mach L A} (h : TReach mem prog c) (hf : Finished c) (l : L) :
    c.mem l = mem l + ∑ t ∈ Finset.range n, amtAt l (prog t) :=
  C42_race_free hn (fun t u hu hua => by rw [ha t u hu] at hua; cases hua) h hf l

/-! ### Lost updates -/

/-- A thread can run alone through part of its program. -/
theorem run_alone {mem : L → A} {prog : ℕ → List (Upd L A)} (t : ℕ) (p q : List (Upd L A)) (c : Mach L A) (h : TReach mem prog c)
    (hth : c.th t = ⟨p ++ q, none⟩) :
    ∃ c', TReach mem prog c' ∧ c'.th = Function.update c.th t ⟨q, none⟩ ∧ ∀ l, c'.mem l = c.mem l + amtAt l p := by
  induction p generalizing c with
  | nil =>
    refine ⟨c, h, ?_, fun l => by simp [amtAt]⟩
    funext t'
    rw [update_th]
    split_ifs with h
    · subst h; exact hth
    · rfl
  | cons u p ih =>
    have hmid : ∃ c', TReach mem prog c' ∧ c'.th = Function.update c.th t ⟨p ++ q, none⟩ ∧
        ∀ l, c'.mem l = c.mem l + if u.loc = l then u.amt else 0 := by
      cases ha : u.atomic with
      | true =>
        refine ⟨_, h.step (TStep.atomic c t u (p ++ q) hth ha), rfl, fun l => ?_⟩
        by_cases hl : l = u.loc
        · subst hl; simp
        · simp [hl, Ne.symm hl]
      | false =>
        have h1 := h.step (TStep.load c t u (p ++ q) hth ha)
        refine ⟨_, h1.step (TStep.store _ t u (p ++ q) (c.mem u.loc) (by simp)), ?_, fun l => ?_⟩
        · simp
        · by_cases hl : l = u.loc
          · subst hl; simp
          · simp [hl, Ne.symm hl]
    obtain ⟨c1, h1, h2, h3⟩ := hmid
    obtain ⟨c2, g1, g2, g3⟩ := ih c1 h1 (by rw [h2]; simp)
    refine ⟨c2, g1, by rw [g2, h2, Function.update_idem], fun l => ?_⟩
    rw [g3, h3]; simp [amtAt, add_assoc]

/-- All threads can run to their end one after the other. -/
theorem run_all {mem : L → A} {prog : ℕ → List (Upd L A)} (n : ℕ) (c : Mach L A) (h : TReach mem prog c)
    (hreg : ∀ t, (c.th t).reg = none) (hn : ∀ t, n ≤ t → (c.th t).todo = []) :
    ∃ c', TReach mem prog c' ∧ Finished c' ∧ ∀ l, c'.mem l = c.mem l + ∑ t ∈ Finset.range n, amtAt l (c.th t).todo := by
  induction n generalizing c with
  | zero => exact ⟨c, h, fun t => hn t (Nat.zero_le _), fun l => by simp⟩
  | succ n ih =>
    have hth : c.th n = ⟨(c.th n).todo ++ [], none⟩ := by rw [List.append_nil, ← hreg n]
    obtain ⟨c1, h1, h2, h3⟩ := run_alone n _ _ c h hth
    obtain ⟨c2, g1, g2, g3⟩ := ih c1 h1 (fun t => by
      rw [h2, update_th]; split_ifs
      · rfl
      · exact hreg t) (fun t ht => by
      rw [h2, update_th]; split_ifs with e
      · rfl
      · exact hn t (by omega))
    refine ⟨c2, g1, g2, fun l => ?_⟩
    rw [g3, h3, Finset.sum_range_succ, add_assoc, add_comm (amtAt l (c.th n).todo)]
    congr 2
    refine Finset.sum_congr rfl fun t ht => ?_
    rw [h2, Function.update_of_ne (by have := Finset.mem_range.1 ht; omega)]

/-- C42, converse: whenever two threads both contain an unprotected update of the same location, some execution loses the
contribution of one of them. -/
theorem C42_lost_update {mem : L → A} {prog : ℕ → List (Upd L A)} {n : ℕ} (hn : ∀ t, n ≤ t → prog t = []) {t t' : ℕ} (hne : t ≠ t')
    {u u' : Upd L A} (hu : u ∈ prog t) (hu' : u' ∈ prog t') (ha : u.atomic = false) (ha' : u'.atomic = false)
    (hl : u.loc = u'.loc) :
    ∃ c, TReach mem prog c ∧ Finished c ∧ c.mem u.loc = mem u.loc + ∑ t ∈ Finset.range n, amtAt u.loc (prog t) - u'.amt := by
  obtain ⟨p, q, hp⟩ := List.append_of_mem hu
  obtain ⟨p', q', hp'⟩ := List.append_of_mem hu'
  have htn : t < n := by by_contra h; rw [hn t (by omega)] at hu; cases hu
  have htn' : t' < n := by by_contra h; rw [hn t' (by omega)] at hu'; cases hu'
  -- both threads reach the update in question
  obtain ⟨c1, h1, h2, h3⟩ := run_alone t p (u :: q) _ (TReach.start (mem := mem) (prog := prog)) (by simp [hp])
  obtain ⟨c2, g1, g2, g3⟩ := run_alone t' p' (u' :: q') c1 h1 (by rw [h2, Function.update_of_ne (Ne.symm hne)]; simp [hp'])
  have e2t : c2.th t = ⟨u :: q, none⟩ := by rw [g2, Function.update_of_ne hne, h2]; simp
  have e2t' : c2.th t' = ⟨u' :: q', none⟩ := by rw [g2]; simp
  -- t loads, t' loads and stores, t stores
  have k1 := g1.step (TStep.load c2 t u q e2t ha)
  have k2 := k1.step (TStep.load _ t' u' q' (by simp [Function.update_of_ne (Ne.symm hne), e2t']) ha')
  have k3 := k2.step (TStep.store _ t' u' q' (c2.mem u'.loc) (by simp))
  have k4 := k3.step (TStep.store _ t u q (c2.mem u.loc) (by simp [Function.update_of_ne hne]))
  set c6 : Mach L A := ⟨_, _⟩ with hc6
  have p1 : ∀ x, (c6.th x).reg = none := by
    intro x
    rw [hc6]
    simp only [update_th, g2, h2]
    split_ifs <;> simp_all
  have p2 : ∀ x, n ≤ x → (c6.th x).todo = [] := by
    intro x hx
    rw [hc6]
    simp only [update_th, g2, h2]
    have := hn x hx
    split_ifs <;> simp_all
  obtain ⟨c7, m1, m2, m3⟩ := run_all n c6 k4 p1 p2
  · refine ⟨c7, m1, m2, ?_⟩
    rw [m3]
    have hmem6 : c6.mem u.loc = mem u.loc + amtAt u.loc p + amtAt u.loc p' + u.amt := by
      rw [hc6]; simp [g3, h3]
    have hth6 : ∀ x, (c6.th x).todo = if x = t then q else if x = t' then q' else prog x := by
      intro x
      rw [hc6]
      simp only [update_th, g2, h2]
      split_ifs <;> simp_all
    have hsum : ∑ x ∈ Finset.range n, amtAt u.loc (prog x) =
        amtAt u.loc p + amtAt u.loc p' + u.amt + u'.amt + ∑ x ∈ Finset.range n, amtAt u.loc (c6.th x).todo := by
      have mt := Finset.mem_range.2 htn
      have mt' : t' ∈ (Finset.range n).erase t := Finset.mem_erase.2 ⟨Ne.symm hne, Finset.mem_range.2 htn'⟩
      rw [← Finset.add_sum_erase _ _ mt, ← Finset.add_sum_erase _ _ mt', ← Finset.add_sum_erase (Finset.range n) (fun x => amtAt u.loc (c6.th x).todo) mt,
        ← Finset.add_sum_erase ((Finset.range n).erase t) (fun x => amtAt u.loc (c6.th x).todo) mt']
      rw [hth6 t, hth6 t', if_pos rfl, if_neg (Ne.symm hne), if_pos rfl, hp, hp']
      have hrest : ∑ x ∈ ((Finset.range n).erase t).erase t', amtAt u.loc (c6.th x).todo =
          ∑ x ∈ ((Finset.range n).erase t).erase t', amtAt u.loc (prog x) := by
        refine Finset.sum_congr rfl fun x hx => ?_
        have hx' : x ≠ t' := Finset.ne_of_mem_erase hx
        have hx'' : x ≠ t := Finset.ne_of_mem_erase (Finset.mem_of_mem_erase hx)
        rw [hth6, if_neg hx'', if_neg hx']
      rw [hrest]
      have hl' : u'.loc = u.loc := hl.symm
      simp only [amtAt, List.map_append, List.map_cons, List.sum_append, List.sum_cons, hl', if_true]
      abel
    rw [hmem6, hsum]
    abel

/-! ### Loops over faces -/

/-- A parallel loop: iterations `ks`, given to threads by `assign`, each thread running its own in order. -/
def loopProg {L A : Type*} (ks : List ℕ) (assign : ℕ → ℕ) (body : ℕ → List (Upd L A)) (t : ℕ) : List (Upd L A) :=
  (ks.filter fun k => assign k = t).flatMap body

theorem amtAt_flatMap (l : L) (ks : List ℕ) (body : ℕ → List (Upd L A)) :
    amtAt l (ks.flatMap body) = (ks.map fun k => amtAt l (body k)).sum := by
  induction ks with
  | nil => rfl
  | cons k ks ih => simp only [List.flatMap_cons, List.map_cons, List.sum_cons, ← ih]; simp [amtAt]

theorem sum_loopProg (l : L) {n : ℕ} (ks : List ℕ) (assign : ℕ → ℕ) (hlt : ∀ k ∈ ks, assign k < n) (body : ℕ → List (Upd L A)) :
    ∑ t ∈ Finset.range n, amtAt l (loopProg ks assign body t) = (ks.map fun k => amtAt l (body k)).sum := by
  induction ks with
  | nil => simp [loopProg, amtAt]
  | cons k ks ih =>
    rw [List.map_cons, List.sum_cons, ← ih fun k hk => hlt k (by simp [hk])]
    have hk := Finset.mem_range.2 (hlt k (by simp))
    rw [← Finset.add_sum_erase _ _ hk, ← Finset.add_sum_erase (Finset.range n) (fun t => amtAt l (loopProg ks assign body t)) hk, ← add_assoc]
    congr 1
    · simp [loopProg, amtAt]
    · refine Finset.sum_congr rfl fun t ht => ?_
      have : assign k ≠ t := (Finset.ne_of_mem_erase ht).symm
      simp [loopProg, this]

omit [DecidableEq L] [AddCommGroup A] in
theorem loopProg_nil {n : ℕ} {ks : List ℕ} {assign : ℕ → ℕ} (hlt : ∀ k ∈ ks, assign k < n) (body : ℕ → List (Upd L A)) (t : ℕ) (ht : n ≤ t) :
    loopProg ks assign body t = [] := by
  unfold loopProg
  have : ks.filter (fun k => assign k = t) = [] := by
    rw [List.filter_eq_nil_iff]
    intro k hk
    have := hlt k hk
    simp; omega
  rw [this]; rfl

/-- The updates of one iteration of `compute_fluxes`, src/spatial/flow_spatial.cpp:552-561, all atomic; locations are
(cell, variable). -/
def fluxUpds (nelem : ℕ) (F : Face) (v : Fin 4 → ℝ) : List (Upd (ℕ × Fin 4) ℝ) :=
  (List.finRange 4).map (fun j => ⟨(F.left, j), - v j, true⟩) ++
    if F.right < nelem then (List.finRange 4).map (fun j => ⟨(F.right, j), v j, true⟩) else []

theorem amtAt_fluxUpds (nelem : ℕ) (F : Face) (v : Fin 4 → ℝ) (i : ℕ) (j : Fin 4) :
    amtAt (i, j) (fluxUpds nelem F v) = contrib nelem F v i j := by
  have key : ∀ (c : ℕ) (w : Fin 4 → ℝ), amtAt (i, j) ((List.finRange 4).map fun j => (⟨(c, j), w j, true⟩ : Upd (ℕ × Fin 4) ℝ)) =
      if c = i then w j else 0 := by
    intro c w
    simp only [amtAt, List.map_map, Function.comp_def, Prod.mk.injEq]
    by_cases h : c = i
    · subst h
      simp only [true_and, if_true]
      fin_cases j <;> simp [List.finRange_succ]
    · simp [h]
  unfold fluxUpds contrib
  have happ : ∀ a b : List (Upd (ℕ × Fin 4) ℝ), amtAt (i, j) (a ++ b) = amtAt (i, j) a + amtAt (i, j) b := fun a b => by simp [amtAt]
  rw [happ, key F.left fun j => - v j]
  split_ifs with h1 h2 h3 <;> simp_all [amtAt] <;> try omega

/-- C42: for every number of threads, distribution of faces to threads and interleaving, the parallel residual assembly
yields the sequential result. -/
theorem C42_assembly {nelem n : ℕ} {faces : List Face} (flux : ℕ → Fin 4 → ℝ) (r : ℕ → Fin 4 → ℝ) (assign : ℕ → ℕ)
    (hlt : ∀ k, k < faces.length → assign k < n) {c : Mach (ℕ × Fin 4) ℝ}
    (h : TReach (fun x => r x.1 x.2)
      (loopProg (List.range faces.length) assign fun k => fluxUpds nelem (faceAt faces k) (flux k)) c)
    (hf : Finished c) (i : ℕ) (j : Fin 4) : c.mem (i, j) = assemble nelem faces flux r i j := by
  have hlt' : ∀ k ∈ List.range faces.length, assign k < n := fun k hk => hlt k (List.mem_range.1 hk)
  rw [C42_atomic (fun t ht => loopProg_nil hlt' _ t ht) (fun t u hu => ?_) h hf (i, j), sum_loopProg _ _ _ hlt', assemble_eq]
  · simp only [amtAt_fluxUpds, Pi.add_apply, Finset.sum_apply]
    rfl
  · simp only [loopProg, List.mem_flatMap, fluxUpds, List.mem_append, List.mem_map] at hu
    obtain ⟨k, _, hu⟩ := hu
    rcases hu with ⟨j, _, rfl⟩ | hu
    · rfl
    · split_ifs at hu
      · obtain ⟨j, _, rfl⟩ := List.mem_map.1 hu; rfl
      · cases hu

end FV
end FVENS
