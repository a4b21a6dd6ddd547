import Mathlib.Data.List.Basic
import Mathlib.Tactic.Common

/-!
# Search for a preconditioner (C106)

`getPC` of src/linalg/alinalg.cpp:300-359 looks into composite preconditioners of PETSc. Modelled of PETSc: which solvers a composite preconditioner holds, and that the smoother of level 0 of a multigrid
preconditioner is its coarse solver (PCMGGetSmoother and PCMGGetCoarseSolve return the same object). Calls of PETSc are taken to succeed.
-/

namespace FVENS
namespace Lin

/-- A preconditioner with the preconditioners of its inner solvers; `id` is its address. Block Jacobi (or additive Schwarz) with the blocks on this process, multigrid (or algebraic multigrid) with levels from
the coarsest on, PCKSP, or one without inner solvers. -/
inductive Pc
  | other (ty : String) (id : ℕ)
  | blocks (asm : Bool) (id : ℕ) (subs : List Pc)
  | mg (gamg : Bool) (id : ℕ) (levels : List Pc)
  | ksp (id : ℕ) (inner : Pc)

/-- Names of the types in PETSc. -/
def Pc.ty : Pc → String
  | .other t _ => t
  | .blocks a _ _ => if a then "asm" else "bjacobi"
  | .mg g _ _ => if g then "gamg" else "mg"
  | .ksp _ _ => "ksp"

def Pc.id : Pc → ℕ
  | .other _ i | .blocks _ i _ | .mg _ i _ | .ksp i _ => i

mutual
/-- `getPC`, src/linalg/alinalg.cpp:300-359: the value of `*pcfound` after the call for the value `f` before; `none` is the error for several blocks on a process (:330-332). -/
def getPC (name : String) : Pc → Option ℕ → Option (Option ℕ)
  | .other t i, f => if t = name then some (some i) else some f
  | .blocks a i subs, f => if (Pc.blocks a i subs).ty = name then some (some i) else getBlock name subs f
  | .mg g i ls, f => if (Pc.mg g i ls).ty = name then some (some i) else (getLevels name ls f).bind (getCoarse name ls)
  | .ksp i p, f => if (Pc.ksp i p).ty = name then some (some i) else getPC name p f
/-- One block: src/linalg/alinalg.cpp:324-333. -/
def getBlock (name : String) : List Pc → Option ℕ → Option (Option ℕ)
  | [p], f => getPC name p f
  | _, _ => none
/-- Loop over levels, src/linalg/alinalg.cpp:340-344. -/
def getLevels (name : String) : List Pc → Option ℕ → Option (Option ℕ)
  | [], f => some f
  | p :: ps, f => (getPC name p f).bind (getLevels name ps)
/-- Coarse solver, src/linalg/alinalg.cpp:345-347. -/
def getCoarse (name : String) : List Pc → Option ℕ → Option (Option ℕ)
  | [], f => some f
  | p :: _, f => getPC name p f
end

/-! ### Specification -/

mutual
/-- Addresses of the preconditioners of the type in a composite one, outermost only, in order (blocks, levels from the coarsest on). -/
def occ (name : String) : Pc → List ℕ
  | .other t i => if t = name then [i] else []
  | .blocks a i subs => if (Pc.blocks a i subs).ty = name then [i] else occs name subs
  | .mg g i ls => if (Pc.mg g i ls).ty = name then [i] else occs name ls
  | .ksp i p => if (Pc.ksp i p).ty = name then [i] else occ name p
def occs (name : String) : List Pc → List ℕ
  | [] => []
  | p :: ps => occ name p ++ occs name ps
end

mutual
/-- Every block preconditioner that has to be entered has one block on this process. -/
def OneBlock (name : String) : Pc → Prop
  | .other _ _ => True
  | .blocks a i subs => (Pc.blocks a i subs).ty = name ∨ (subs.length = 1 ∧ OneBlocks name subs)
  | .mg g i ls => (Pc.mg g i ls).ty = name ∨ OneBlocks name ls
  | .ksp i p => (Pc.ksp i p).ty = name ∨ OneBlock name p
def OneBlocks (name : String) : List Pc → Prop
  | [] => True
  | p :: ps => OneBlock name p ∧ OneBlocks name ps
end

mutual
/-- In every multigrid preconditioner that has to be entered, the type occurs in the coarse solver or on at most one level. -/
def Plain (name : String) : Pc → Prop
  | .other _ _ => True
  | .blocks a i subs => (Pc.blocks a i subs).ty = name ∨ Plains name subs
  | .mg g i ls => (Pc.mg g i ls).ty = name ∨ (Plains name ls ∧ (occs name (ls.take 1) ≠ [] ∨ ls.Pairwise fun p q => occ name p = [] ∨ occ name q = []))
  | .ksp i p => (Pc.ksp i p).ty = name ∨ Plain name p
def Plains (name : String) : List Pc → Prop
  | [] => True
  | p :: ps => Plain name p ∧ Plains name ps
end

/-! ### Lemmas -/

theorem occs_nil {name : String} : ∀ {l : List Pc}, occs name l = [] ↔ ∀ p ∈ l, occ name p = []
  | [] => by simp [occs]
  | p :: ps => by simp [occs, occs_nil (l := ps)]

mutual
theorem get_some {name : String} : ∀ (p : Pc) (f : Option ℕ), OneBlock name p → ∃ g, getPC name p f = some g ∧ (occ name p = [] → g = f) ∧ (occ name p ≠ [] → ∃ i ∈ occ name p, g = some i)
  | .other t i, f, _ => by
    by_cases h : t = name
    · exact ⟨some i, by simp [getPC, h], by simp [occ, h], fun _ => ⟨i, by simp [occ, h], rfl⟩⟩
    · exact ⟨f, by simp [getPC, h], fun _ => rfl, by simp [occ, h]⟩
  | .blocks a i subs, f, h => by
    by_cases ht : (Pc.blocks a i subs).ty = name
    · exact ⟨some i, by simp only [getPC, if_pos ht], by simp [occ, ht], fun _ => ⟨i, by simp [occ, ht], rfl⟩⟩
    · simp only [OneBlock, ht, false_or] at h
      simp only [getPC, occ, if_neg ht]
      match subs, h with
      | [p], h =>
        simp only [getBlock, occs, List.append_nil]
        exact get_some p f h.2.1
  | .mg g i ls, f, h => by
    by_cases ht : (Pc.mg g i ls).ty = name
    · exact ⟨some i, by simp only [getPC, if_pos ht], by simp [occ, ht], fun _ => ⟨i, by simp [occ, ht], rfl⟩⟩
    · simp only [OneBlock, ht, false_or] at h
      simp only [getPC, occ, if_neg ht]
      obtain ⟨g1, h1, h2, h3⟩ := levels_some ls f h
      obtain ⟨g2, h4, h5, h6⟩ := coarse_some ls g1 h
      refine ⟨g2, by rw [h1]; exact h4, fun e => ?_, fun e => ?_⟩
      · rw [h5 (occs_nil.2 fun p hp => occs_nil.1 e p (List.mem_of_mem_take hp)), h2 e]
      · by_cases hc : occs name (ls.take 1) = []
        · rw [h5 hc]; exact h3 e
        · obtain ⟨j, hj, rfl⟩ := h6 hc
          refine ⟨j, ?_, rfl⟩
          match ls, hj with
          | p :: ps, hj =>
            simp only [List.take_succ_cons, List.take_zero, occs, List.append_nil] at hj
            simp only [occs]
            exact List.mem_append_left _ hj
  | .ksp i p, f, h => by
    by_cases ht : (Pc.ksp i p).ty = name
    · exact ⟨some i, by simp only [getPC, if_pos ht], by simp [occ, ht], fun _ => ⟨i, by simp [occ, ht], rfl⟩⟩
    · simp only [OneBlock, ht, false_or] at h
      simp only [getPC, occ, if_neg ht]
      exact get_some p f h
theorem levels_some {name : String} : ∀ (l : List Pc) (f : Option ℕ), OneBlocks name l → ∃ g, getLevels name l f = some g ∧ (occs name l = [] → g = f) ∧ (occs name l ≠ [] → ∃ i ∈ occs name l, g = some i)
  | [], f, _ => ⟨f, by simp [getLevels], fun _ => rfl, by simp [occs]⟩
  | p :: ps, f, h => by
    obtain ⟨g1, h1, h2, h3⟩ := get_some p f h.1
    obtain ⟨g2, h4, h5, h6⟩ := levels_some ps g1 h.2
    refine ⟨g2, by simp only [getLevels, h1, Option.bind_some, h4], fun e => ?_, fun e => ?_⟩
    · simp only [occs, List.append_eq_nil_iff] at e
      rw [h5 e.2, h2 e.1]
    · by_cases hc : occs name ps = []
      · rw [h5 hc]
        obtain ⟨j, hj, e'⟩ := h3 (by intro e'; apply e; simp [occs, e', hc])
        exact ⟨j, by simp only [occs]; exact List.mem_append_left _ hj, e'⟩
      · obtain ⟨j, hj, e'⟩ := h6 hc
        exact ⟨j, by simp only [occs]; exact List.mem_append_right _ hj, e'⟩
theorem coarse_some {name : String} : ∀ (l : List Pc) (f : Option ℕ), OneBlocks name l → ∃ g, getCoarse name l f = some g ∧ (occs name (l.take 1) = [] → g = f) ∧
    (occs name (l.take 1) ≠ [] → ∃ i ∈ occs name (l.take 1), g = some i)
  | [], f, _ => ⟨f, by simp [getCoarse], fun _ => rfl, by simp [occs]⟩
  | p :: ps, f, h => by
    simp only [getCoarse, List.take_succ_cons, List.take_zero, occs, List.append_nil]
    exact get_some p f h.1
end

mutual
theorem get_one {name : String} : ∀ (p : Pc) (f g : Option ℕ), getPC name p f = some g → OneBlock name p
  | .other t i, f, g, _ => trivial
  | .blocks a i subs, f, g, h => by
    by_cases ht : (Pc.blocks a i subs).ty = name
    · exact .inl ht
    · simp only [getPC, if_neg ht] at h
      match subs, h with
      | [p], h => exact .inr ⟨rfl, get_one p f g (by simpa [getBlock] using h), trivial⟩
      | [], h => simp [getBlock] at h
      | p :: q :: r, h => simp [getBlock] at h
  | .mg b i ls, f, g, h => by
    by_cases ht : (Pc.mg b i ls).ty = name
    · exact .inl ht
    · simp only [getPC, if_neg ht] at h
      obtain ⟨g1, h1, -⟩ := Option.bind_eq_some_iff.1 h
      exact .inr (levels_one ls f g1 h1)
  | .ksp i p, f, g, h => by
    by_cases ht : (Pc.ksp i p).ty = name
    · exact .inl ht
    · simp only [getPC, if_neg ht] at h
      exact .inr (get_one p f g h)
theorem levels_one {name : String} : ∀ (l : List Pc) (f g : Option ℕ), getLevels name l f = some g → OneBlocks name l
  | [], _, _, _ => trivial
  | p :: ps, f, g, h => by
    simp only [getLevels] at h
    obtain ⟨g1, h1, h2⟩ := Option.bind_eq_some_iff.1 h
    exact ⟨get_one p f g1 h1, levels_one ps g1 g h2⟩
end

mutual
theorem get_first {name : String} : ∀ (p : Pc) (f : Option ℕ), OneBlock name p → Plain name p → occ name p ≠ [] → getPC name p f = some (occ name p).head?
  | .other t i, f, _, _, h => by
    by_cases ht : t = name
    · simp [getPC, occ, ht]
    · simp [occ, ht] at h
  | .blocks a i subs, f, h1, h2, h => by
    by_cases ht : (Pc.blocks a i subs).ty = name
    · simp [getPC, occ, ht]
    · simp only [OneBlock, Plain, ht, false_or, occ] at h1 h2 h
      simp only [getPC, occ, if_neg ht]
      match subs, h1, h2, h with
      | [p], h1, h2, h =>
        simp only [getBlock, occs, List.append_nil] at h ⊢
        exact get_first p f h1.2.1 h2.1 h
  | .mg b i ls, f, h1, h2, h => by
    by_cases ht : (Pc.mg b i ls).ty = name
    · simp [getPC, occ, ht]
    · simp only [OneBlock, Plain, ht, false_or, occ] at h1 h2 h
      simp only [getPC, occ, if_neg ht]
      obtain ⟨g1, h3, h4, h5⟩ := levels_some ls f h1
      rw [h3, Option.bind_some]
      match ls, h1, h2, h, h3 with
      | p :: ps, h1, h2, h, h3 =>
        simp only [getCoarse, List.take_succ_cons, List.take_zero, occs, List.append_nil] at h h2 ⊢
        by_cases hp : occ name p = []
        · rw [hp] at h h2
          simp only [ne_eq, not_true_eq_false, false_or] at h2
          obtain ⟨g2, h6, h7, -⟩ := get_some p g1 h1.1
          rw [h6, h7 hp, hp, List.nil_append]
          have h8 := levels_first ps f h1.2 h2.1.2 (List.Pairwise.of_cons h2.2) (by simpa using h)
          simp only [getLevels] at h3
          obtain ⟨g3, h9, h10, -⟩ := get_some p f h1.1
          rw [h9, h10 hp, Option.bind_some, h8] at h3
          rw [← h3]
        · rw [get_first p g1 h1.1 h2.1.1 hp]
          rw [List.head?_append_of_ne_nil _ hp]
  | .ksp i p, f, h1, h2, h => by
    by_cases ht : (Pc.ksp i p).ty = name
    · simp [getPC, occ, ht]
    · simp only [OneBlock, Plain, ht, false_or, occ] at h1 h2 h
      simp only [getPC, occ, if_neg ht]
      exact get_first p f h1 h2 h
theorem levels_first {name : String} : ∀ (l : List Pc) (f : Option ℕ), OneBlocks name l → Plains name l → (l.Pairwise fun p q => occ name p = [] ∨ occ name q = []) → occs name l ≠ [] →
    getLevels name l f = some (occs name l).head?
  | [], _, _, _, _, h => absurd rfl h
  | p :: ps, f, h1, h2, h3, h => by
    simp only [getLevels, occs]
    by_cases hp : occ name p = []
    · obtain ⟨g1, h4, h5, -⟩ := get_some p f h1.1
      rw [h4, h5 hp, Option.bind_some, hp, List.nil_append]
      exact levels_first ps f h1.2 h2.2 (List.Pairwise.of_cons h3) (by simpa [occs, hp] using h)
    · rw [get_first p f h1.1 h2.1 hp, Option.bind_some, List.head?_append_of_ne_nil _ hp]
      have hz : occs name ps = [] := occs_nil.2 fun q hq => (List.rel_of_pairwise_cons h3 hq).resolve_left hp
      obtain ⟨g, h4, h5, -⟩ := levels_some ps (occ name p).head? h1.2
      rw [h4, h5 hz]
end

/-! ### Properties -/

/-- C106: the search fails exactly if it comes to a block preconditioner that does not have one block on this process. -/
theorem C106_error_iff (name : String) (p : Pc) (f : Option ℕ) : getPC name p f = none ↔ ¬ OneBlock name p := by
  constructor
  · intro h h1
    obtain ⟨g, h2, -⟩ := get_some p f h1
    rw [h] at h2; cases h2
  · intro h
    by_contra hn
    obtain ⟨g, hg⟩ := Option.ne_none_iff_exists'.1 hn
    exact h (get_one p f g hg)

/-- C106: otherwise it finds a preconditioner of the type if there is one, and leaves the output argument alone if there is none. -/
theorem C106_finds {name : String} {p : Pc} (h : OneBlock name p) (f : Option ℕ) :
    (occ name p = [] → getPC name p f = some f) ∧ (occ name p ≠ [] → ∃ i ∈ occ name p, getPC name p f = some (some i)) := by
  obtain ⟨g, h1, h2, h3⟩ := get_some p f h
  refine ⟨fun e => by rw [h1, h2 e], fun e => ?_⟩
  obtain ⟨i, hi, rfl⟩ := h3 e
  exact ⟨i, hi, h1⟩

/-- C106 (partial): it finds the first occurrence, as documented (src/linalg/alinalg.cpp:300), if in multigrid preconditioners the type occurs in the coarse solver or on at most one level. Missing: see
`C106_first_refuted`. -/
theorem C106_first_partial {name : String} {p : Pc} (h : OneBlock name p) (hp : Plain name p) (f : Option ℕ) (he : occ name p ≠ []) : getPC name p f = some (occ name p).head? :=
  get_first p f h hp he

/-- C106 fails: in a multigrid preconditioner with another coarse solver and smoothers of the type on all finer levels, which is the usual set-up, the last is found, on the finest level. -/
theorem C106_first_refuted (name : String) (hn : name ≠ "mg") (c : Pc) (hc : occ name c = []) (ho : OneBlock name c) (ids : List ℕ) (i : ℕ) (f : Option ℕ) :
    occ name (.mg false 0 (c :: (ids ++ [i]).map (Pc.other name))) = ids ++ [i] ∧ getPC name (.mg false 0 (c :: (ids ++ [i]).map (Pc.other name))) f = some (some i) := by
  have hty : ¬ (Pc.mg false 0 (c :: (ids ++ [i]).map (Pc.other name))).ty = name := fun e => hn e.symm
  have h1 : ∀ l : List ℕ, occs name (l.map (Pc.other name)) = l := fun l => by
    induction l with
    | nil => rfl
    | cons a l ih => simp [occs, occ, ih]
  have h2 : ∀ (l : List ℕ) f, getLevels name ((l ++ [i]).map (Pc.other name)) f = some (some i) := fun l => by
    induction l with
    | nil => intro f; simp [getLevels, getPC]
    | cons a l ih => intro f; simp only [List.cons_append, List.map_cons, getLevels, getPC, if_true, Option.bind_some]; exact ih _
  refine ⟨?_, ?_⟩
  · simp only [occ, if_neg hty, occs, hc, List.nil_append, h1]
  · simp only [getPC, if_neg hty, getLevels, getCoarse]
    obtain ⟨g, h3, h4, -⟩ := get_some c f ho
    obtain ⟨g', h5, h6, -⟩ := get_some c (some i) ho
    rw [h3, Option.bind_some, h2, Option.bind_some, h5, h6 hc]

/-- Concrete case: three levels, LU on the coarsest, Jacobi smoothers at addresses 7 and 8; the second is found. -/
example : getPC "jacobi" (.mg false 0 [.other "lu" 6, .other "jacobi" 7, .other "jacobi" 8]) none = some (some 8) := by
  have := (C106_first_refuted "jacobi" (by decide) (.other "lu" 6) (by decide) trivial [7] 8 none).2
  exact this

/-- Concrete case meeting the hypotheses of `C106_first_partial`: ILU in the only block of block Jacobi, which is the coarse solver and the smoother of multigrid inside PCKSP. -/
example : getPC "ilu" (.ksp 0 (.mg true 1 [.blocks false 2 [.other "ilu" 3], .blocks true 4 [.other "ilu" 5]])) none = some (some 3) :=
  C106_first_partial (p := .ksp 0 (.mg true 1 [.blocks false 2 [.other "ilu" 3], .blocks true 4 [.other "ilu" 5]]))
    (by simp [OneBlock, OneBlocks]) (by simp [Plain, Plains, occs, occ, Pc.ty]) none (by simp [occs, occ, Pc.ty])

end Lin
end FVENS
