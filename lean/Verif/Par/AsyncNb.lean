import Verif.Par.AsyncSecond

/-!
# Processes that wait for their neighbours only (C118)

In `World.Step` an operation completes for all processes at once. Here a process leaves an operation as soon as those processes have entered it whose contributions it needs; processes may then
be several operations apart.
-/

namespace FVENS
namespace Par

open Msh FV Flux Ode

namespace World
variable {n : ℕ} {L V : Type} (W : World n L V)

/-- What process `q` has contributed to its operation number `i`: it has left it, or is in it. `x` is its state and what it contributed to the operations it has left. -/
def posted (q : Fin n) (x : L × List (ℕ × V)) (i : ℕ) : Option (ℕ × V) :=
  if i < x.2.length then x.2[i]?
  else if i = x.2.length then match W.act q x.1 with
    | .coll c v _ => some (c, v)
    | _ => none
  else none

/-- One step of one process: it computes on its own, or leaves an operation once those it waits for, `nb c r`, have entered the same one. -/
inductive NStep (nb : ℕ → Fin n → Fin n → Prop) : (Fin n → L × List (ℕ × V)) → (Fin n → L × List (ℕ × V)) → Prop
  | loc {s r l} : W.act r (s r).1 = .loc l → NStep nb s (Function.update s r (l, (s r).2))
  | coll {s r c v k} (w : Fin n → V) : W.act r (s r).1 = .coll c v k → (∀ q, q = r ∨ nb c r q → W.posted q (s q) (s r).2.length = some (c, w q)) →
      NStep nb s (Function.update s r (k (W.reply c w r), (s r).2 ++ [(c, v)]))

/-- Every execution from `s` is finite, and where it cannot be continued all processes have ended and `Q` holds. -/
inductive NFine (nb : ℕ → Fin n → Fin n → Prop) (Q : (Fin n → L) → Prop) : (Fin n → L × List (ℕ × V)) → Prop
  | mk {s} : ((¬ ∃ s', W.NStep nb s s') → W.Ended (fun r => (s r).1) ∧ Q fun r => (s r).1) → (∀ s', W.NStep nb s s' → NFine nb Q s') → NFine nb Q s

/-- What `NFine` means for finite executions: as long as not all processes have ended some can proceed, and once all have ended `Q` holds. -/
theorem NFine.reach {W : World n L V} {nb : ℕ → Fin n → Fin n → Prop} {Q : (Fin n → L) → Prop} {s t : Fin n → L × List (ℕ × V)} (h : W.NFine nb Q s) (hr : Relation.ReflTransGen (W.NStep nb) s t) :
    ((W.Ended fun r => (t r).1) → Q fun r => (t r).1) ∧ ((¬ W.Ended fun r => (t r).1) → ∃ t', W.NStep nb t t') := by
  have : W.NFine nb Q t := by
    induction hr with
    | refl => exact h
    | tail _ hs ih => cases ih with | mk _ h2 => exact h2 _ hs
  cases this with
  | mk h1 _ =>
    refine ⟨fun he => (h1 ?_).2, fun he => by
      by_contra hc
      exact he (h1 hc).1⟩
    rintro ⟨t', hst⟩
    cases hst with
    | @loc r l hl => have := he r; simp only at this; rw [this] at hl; cases hl
    | @coll r c v k w hl _ => have := he r; simp only at this; rw [this] at hl; cases hl

/-- What `NFine` means for infinite executions: there are none. -/
theorem NFine.finite {W : World n L V} {nb : ℕ → Fin n → Fin n → Prop} {Q : (Fin n → L) → Prop} {s : Fin n → L × List (ℕ × V)} (h : W.NFine nb Q s) :
    ¬ ∃ f : ℕ → Fin n → L × List (ℕ × V), f 0 = s ∧ ∀ i, W.NStep nb (f i) (f (i + 1)) := by
  induction h with
  | mk _ _ ih =>
    rintro ⟨f, h0, hf⟩
    subst h0
    exact ih (f 1) (hf 0) ⟨fun i => f (i + 1), rfl, fun i => hf (i + 1)⟩

/-- What an operation hands to a process depends only on the processes it waits for. -/
def Local (nb : ℕ → Fin n → Fin n → Prop) : Prop := ∀ c v v' r, (∀ q, q = r ∨ nb c r q → v q = v' q) → W.reply c v r = W.reply c v' r

/-- The rounds of an execution of all in step: `g i` after `i` operations, `b i` before the next. -/
structure Plan (Q : (Fin n → L) → Prop) where
  N : ℕ
  g : ℕ → Fin n → L
  b : ℕ → Fin n → L
  d : ℕ → Fin n → ℕ
  c : ℕ → ℕ
  v : ℕ → Fin n → V
  k : ℕ → Fin n → V → L
  own : ∀ i, i ≤ N → ∀ r, W.Own r (d i r) (g i r) (b i r)
  coll : ∀ i, i < N → ∀ r, W.act r (b i r) = .coll (c i) (v i r) (k i r)
  next : ∀ i, i < N → ∀ r, g (i + 1) r = k i r (W.reply (c i) (v i) r)
  halt : ∀ r, W.act r (b N r) = .halt
  post : Q (b N)

variable {W}

theorem plan_of_fine [Inhabited V] {Q : (Fin n → L) → Prop} {s : Fin n → L} (h : W.Fine Q s) : ∃ p : W.Plan Q, p.g 0 = s := by
  classical
  unfold Fine at h
  induction h with
  | @mk s h1 _ ih =>
    by_cases hst : ∃ s', W.Step s s'
    · obtain ⟨s', hs'⟩ := hst
      obtain ⟨p, hp⟩ := ih s' hs'
      cases hs' with
      | @loc r l hl =>
        refine ⟨{ p with
          g := Function.update p.g 0 s
          d := Function.update p.d 0 (Function.update (p.d 0) r (p.d 0 r + 1))
          own := fun i hi q => ?_
          next := fun i hi q => ?_ }, ?_⟩
        · by_cases h0 : i = 0
          · subst h0
            rw [Function.update_self, Function.update_self]
            have := p.own 0 hi q
            rw [hp] at this
            by_cases hq : q = r
            · subst hq
              rw [Function.update_self] at this ⊢
              exact .step hl this
            · rw [Function.update_of_ne hq] at this ⊢
              exact this
          · rw [Function.update_of_ne h0, Function.update_of_ne h0]
            exact p.own i hi q
        · rw [Function.update_of_ne (Nat.succ_ne_zero i)]
          exact p.next i hi q
        · show Function.update p.g 0 s 0 = s
          simp
      | @coll c v k hv =>
        refine ⟨{
          N := p.N + 1
          g := fun i => Nat.casesOn i s p.g
          b := fun i => Nat.casesOn i s p.b
          d := fun i => Nat.casesOn i (fun _ => 0) p.d
          c := fun i => Nat.casesOn i c p.c
          v := fun i => Nat.casesOn i v p.v
          k := fun i => Nat.casesOn i k p.k
          own := fun i hi q => ?_
          coll := fun i hi q => ?_
          next := fun i hi q => ?_
          halt := p.halt
          post := p.post }, rfl⟩
        · cases i with
          | zero => exact .refl
          | succ i => exact p.own i (by omega) q
        · cases i with
          | zero => exact hv q
          | succ i => exact p.coll i (by omega) q
        · cases i with
          | zero => exact congrFun hp q
          | succ i => exact p.next i (by omega) q
    · obtain ⟨e1, e2⟩ := h1 hst
      exact ⟨{
        N := 0
        g := fun _ => s
        b := fun _ => s
        d := fun _ _ => 0
        c := fun _ => 0
        v := fun _ _ => default
        k := fun _ r _ => s r
        own := fun _ _ _ => .refl
        coll := fun i hi => absurd hi (by omega)
        next := fun i hi => absurd hi (by omega)
        halt := e1
        post := e2 }, rfl⟩

/-- Where a process is: `i` operations left behind, `e` steps on its own before the next. -/
def Plan.At {Q : (Fin n → L) → Prop} (p : W.Plan Q) (r : Fin n) (x : L × List (ℕ × V)) (i e : ℕ) : Prop :=
  i ≤ p.N ∧ W.Own r e x.1 (p.b i r) ∧ x.2 = (List.range i).map fun m => (p.c m, p.v m r)

theorem Own.blocked {r : Fin n} {e : ℕ} {l b : L} (h : W.Own r e l b) (hl : ∀ l', W.act r l ≠ .loc l') : e = 0 ∧ l = b := by
  cases h with
  | refl => exact ⟨rfl, rfl⟩
  | step h1 _ => exact absurd h1 (hl _)

section plan
variable {Q : (Fin n → L) → Prop} {p : W.Plan Q} {nb : ℕ → Fin n → Fin n → Prop}

theorem Plan.at_end {r : Fin n} {x : L × List (ℕ × V)} {i e : ℕ} (h : p.At r x i e) : ∀ l, W.act r (p.b i r) ≠ .loc l := by
  intro l hl
  rcases lt_or_eq_of_le h.1 with hi | rfl
  · rw [p.coll i hi r] at hl; cases hl
  · rw [p.halt r] at hl; cases hl

theorem Plan.posted_eq {q : Fin n} {x : L × List (ℕ × V)} {i e j : ℕ} (h : p.At q x i e) {y : ℕ × V} (hy : W.posted q x j = some y) : j < p.N ∧ y = (p.c j, p.v j q) := by
  obtain ⟨h1, h2, h3⟩ := h
  unfold posted at hy
  have hlen : x.2.length = i := by rw [h3, List.length_map, List.length_range]
  rw [hlen] at hy
  split_ifs at hy with hj hj'
  · rw [h3, List.getElem?_map, List.getElem?_range hj, Option.map_some, Option.some.injEq] at hy
    exact ⟨by omega, hy.symm⟩
  · subst hj'
    cases ha : W.act q x.1 with
    | loc l => rw [ha] at hy; cases hy
    | halt => rw [ha] at hy; cases hy
    | coll c v k =>
      rw [ha] at hy
      obtain ⟨-, hb⟩ := h2.blocked fun l' hl => by rw [ha] at hl; cases hl
      rcases lt_or_eq_of_le h1 with hi | rfl
      · have := p.coll j hi q
        rw [← hb, ha] at this
        injection this with e1 e2 _
        rw [← e1, ← e2]
        exact ⟨hi, (Option.some.inj hy).symm⟩
      · have := p.halt q
        rw [← hb, ha] at this; cases this

theorem Plan.posted_at {q : Fin n} {x : L × List (ℕ × V)} {i j : ℕ} (h : p.At q x i 0) (hj : j ≤ i) (hN : j < p.N) : W.posted q x j = some (p.c j, p.v j q) := by
  obtain ⟨h1, h2, h3⟩ := h
  have hlen : x.2.length = i := by rw [h3, List.length_map, List.length_range]
  unfold posted
  rw [hlen]
  split_ifs with hj' hj''
  · rw [h3, List.getElem?_map, List.getElem?_range hj', Option.map_some]
  · subst hj''
    generalize hb : p.b j q = y at h2
    cases h2
    rw [← hb, p.coll j hN q]
  · omega

/-- Steps a process has left. -/
def Plan.left (p : W.Plan Q) (r : Fin n) (i e : ℕ) : ℕ := e + ∑ m ∈ Finset.Ico i p.N, (1 + p.d (m + 1) r)

theorem Plan.step_own {r : Fin n} {x : L × List (ℕ × V)} {i e : ℕ} (h : p.At r x i e) {l : L} (hl : W.act r x.1 = .loc l) :
    ∃ e', e = e' + 1 ∧ p.At r (l, x.2) i e' := by
  have hend := Plan.at_end h
  obtain ⟨h1, h2, h3⟩ := h
  generalize hb : p.b i r = y at h2 hend
  generalize hx : x.1 = z at h2 hl
  cases h2 with
  | refl => exact absurd hl (hend l)
  | @step e' _ l1 _ g1 g2 =>
    rw [hl] at g1; cases g1
    exact ⟨e', rfl, h1, hb ▸ g2, h3⟩

theorem Plan.step_coll (hloc : W.Local nb) {s : Fin n → L × List (ℕ × V)} {i e : Fin n → ℕ} (h : ∀ r, p.At r (s r) (i r) (e r)) {r : Fin n} {c : ℕ} {v : V} {k : V → L} {w : Fin n → V}
    (ha : W.act r (s r).1 = .coll c v k) (hw : ∀ q, q = r ∨ nb c r q → W.posted q (s q) (s r).2.length = some (c, w q)) :
    e r = 0 ∧ i r < p.N ∧ p.At r (k (W.reply c w r), (s r).2 ++ [(c, v)]) (i r + 1) (p.d (i r + 1) r) := by
  obtain ⟨h1, h2, h3⟩ := h r
  obtain ⟨he, hb⟩ := h2.blocked fun l' hl => by rw [ha] at hl; cases hl
  have hlen : (s r).2.length = i r := by rw [h3, List.length_map, List.length_range]
  rw [hlen] at hw
  have hi := (Plan.posted_eq (h r) (hw r (.inl rfl))).1
  have e1 := p.coll (i r) hi r
  rw [← hb, ha] at e1
  injection e1 with e1 e2 e3
  have hrep : W.reply c w r = W.reply (p.c (i r)) (p.v (i r)) r := by
    rw [← e1]
    exact hloc c _ _ r fun q hq => (Prod.mk.inj (Plan.posted_eq (h q) (hw q hq)).2).2
  refine ⟨he, hi, hi, ?_, ?_⟩
  · show W.Own r _ (k (W.reply c w r)) _
    rw [hrep, e3, ← p.next (i r) hi r]
    exact p.own _ hi r
  · show (s r).2 ++ [(c, v)] = _
    rw [List.range_succ, List.map_append, ← h3, e1, e2]
    rfl

theorem nfine_of_plan (hloc : W.Local nb) (M : ℕ) : ∀ (s : Fin n → L × List (ℕ × V)) (i e : Fin n → ℕ), (∀ r, p.At r (s r) (i r) (e r)) → ∑ r, p.left r (i r) (e r) = M →
    W.NFine nb Q s := by
  classical
  induction M using Nat.strong_induction_on with
  | _ M ih =>
    intro s i e h hM
    have hlt : ∀ (r : Fin n) (i' e' : ℕ), p.left r i' e' < p.left r (i r) (e r) →
        ∑ q, p.left q (Function.update i r i' q) (Function.update e r e' q) < M := fun r i' e' hl => by
      rw [← hM]
      refine Finset.sum_lt_sum (fun q _ => ?_) ⟨r, Finset.mem_univ r, by rwa [Function.update_self, Function.update_self]⟩
      by_cases hq : q = r
      · subst hq; rw [Function.update_self, Function.update_self]; exact hl.le
      · rw [Function.update_of_ne hq, Function.update_of_ne hq]
    have hat : ∀ (r : Fin n) (x : L × List (ℕ × V)) (i' e' : ℕ), p.At r x i' e' → ∀ q, p.At q (Function.update s r x q) (Function.update i r i' q) (Function.update e r e' q) :=
      fun r x i' e' hx q => by
        by_cases hq : q = r
        · subst hq; rw [Function.update_self, Function.update_self, Function.update_self]; exact hx
        · rw [Function.update_of_ne hq, Function.update_of_ne hq, Function.update_of_ne hq]; exact h q
    refine .mk (fun hst => ?_) fun s' hs => ?_
    · have he : ∀ r, e r = 0 := fun r => by
        by_contra hne
        obtain ⟨-, h2, -⟩ := h r
        generalize hz : e r = z at h2 hne
        generalize p.b (i r) r = y at h2
        generalize hx : (s r).1 = x at h2
        cases h2 with
        | refl => exact hne rfl
        | step g1 _ => exact hst ⟨_, .loc (r := r) (hx ▸ g1)⟩
      have hb : ∀ r, (s r).1 = p.b (i r) r := fun r => by
        obtain ⟨-, h2, -⟩ := h r
        rw [he r] at h2
        generalize p.b (i r) r = y at h2
        generalize (s r).1 = x at h2
        cases h2; rfl
      have hN : ∀ r, i r = p.N := fun r0 => by
        by_contra hne
        obtain ⟨r, -, hr⟩ := Finset.exists_min_image Finset.univ i ⟨r0, Finset.mem_univ _⟩
        have hir : i r < p.N := lt_of_le_of_lt (hr r0 (Finset.mem_univ _)) (lt_of_le_of_ne (h r0).1 hne)
        have hlen : (s r).2.length = i r := by rw [(h r).2.2, List.length_map, List.length_range]
        refine hst ⟨_, .coll (r := r) (p.v (i r)) (by rw [hb r]; exact p.coll (i r) hir r) fun q _ => ?_⟩
        rw [hlen]
        exact Plan.posted_at (i := i q) (by have := h q; rwa [he q] at this) (hr q (Finset.mem_univ _)) hir
      have hs : (fun r => (s r).1) = p.b p.N := funext fun r => by rw [hb r, hN r]
      rw [hs]
      exact ⟨p.halt, p.post⟩
    · cases hs with
      | @loc r l hl =>
        obtain ⟨e', h1, h2⟩ := Plan.step_own (h r) hl
        exact ih _ (hlt r (i r) e' (by unfold Plan.left; omega)) _ _ _ (hat r _ _ _ h2) rfl
      | @coll r c v k w ha hw =>
        obtain ⟨h1, h2, h3⟩ := Plan.step_coll hloc h ha hw
        refine ih _ (hlt r (i r + 1) _ ?_) _ _ _ (hat r _ _ _ h3) rfl
        unfold Plan.left
        rw [Finset.sum_eq_sum_Ico_succ_bot h2]
        omega

/-- C118 without the simplification that operations complete for all processes at once: if all executions in which they do end with all processes ended and `Q`, so do all executions in which a
process leaves an operation as soon as those processes have entered it that it waits for, whoever these are, provided what it receives depends on no others. -/
theorem C118_neighbours [Inhabited V] {nb : ℕ → Fin n → Fin n → Prop} (hloc : W.Local nb) {s : Fin n → L} (h : W.Fine Q s) : W.NFine nb Q fun r => (s r, []) := by
  obtain ⟨p, hp⟩ := plan_of_fine h
  refine nfine_of_plan (p := p) hloc _ _ (fun _ => 0) (p.d 0) (fun r => ⟨Nat.zero_le _, ?_, rfl⟩) rfl
  have := p.own 0 (Nat.zero_le _) r
  rwa [hp] at this

end plan
end World

/-! ### Whom the processes of the solvers wait for -/

/-- Ranks `r` and `q` have cells with a face in common. -/
def Shares (gm : Mesh) (dist : ℕ → ℕ) (r q : ℕ) : Prop := ∃ x y : ℕ × ℕ, Glued gm x y ∧ dist x.1 = r ∧ dist y.1 = q

theorem Shares.symm {gm : Mesh} {dist : ℕ → ℕ} {r q : ℕ} (h : Shares gm dist r q) : Shares gm dist q r := by
  obtain ⟨x, y, h1, h2, h3⟩ := h
  exact ⟨y, x, h1.symm, h3, h2⟩

/-- Whom a process waits for: for all processes in operations `all` (linear solve and global sums), otherwise for those with cells next to its own: a process receives only from those it has
ghost cells or interface faces of, src/linalg/alinalg.cpp:17-29, src/linalg/tracevector.cpp:214-330. -/
def waits (gm : Mesh) (dist : ℕ → ℕ) (n : ℕ) (all : ℕ → Prop) (c : ℕ) (r q : Fin n) : Prop := all c ∨ Shares gm dist r q

/-- `q` owns the position of a ghost block of `r`. -/
def GhostOf (gm : Mesh) (s : FState) (dist : ℕ → ℕ) (r q : ℕ) : Prop :=
  ∃ S, restrict gm s dist r = .ok S ∧ ∃ ic, ic < S.mesh.nconnface ∧ offset gm s dist q ≤ S.mesh.connface ic 3 ∧ S.mesh.connface ic 3 < offset gm s dist (q + 1)

section solvers
variable {P : Settings} {gm : Mesh} {s : FState} {dist : ℕ → ℕ} {n : ℕ} {gs : GradScheme} {R : ReconScheme}

theorem allOf_eq {V : Type} [Zero V] {v v' : Fin n → ℕ → V} {q : ℕ} (h : ∀ hq : q < n, v ⟨q, hq⟩ = v' ⟨q, hq⟩) : allOf n v q = allOf n v' q := by
  unfold allOf
  split_ifs with hq
  · exact h hq
  · rfl

theorem ghostAfter_local {V : Type} [Zero V] {v v' : Fin n → ℕ → V} {r : Fin n} (h : ∀ q : Fin n, GhostOf gm s dist r q → v q = v' q) (ic : ℕ) :
    ghostAfter gm s dist n (allOf n v) r ic = ghostAfter gm s dist n (allOf n v') r ic := by
  unfold ghostAfter
  split
  · rename_i S hS
    split_ifs with hic
    · unfold blockAt
      cases hf : (List.range n).find? fun q => offset gm s dist q ≤ S.mesh.connface ic 3 ∧ S.mesh.connface ic 3 < offset gm s dist (q + 1) with
      | none => rfl
      | some q =>
        have h1 := List.find?_some hf
        simp only [decide_eq_true_eq] at h1
        rw [Option.map_some, Option.map_some, allOf_eq fun hq => h ⟨q, hq⟩ ⟨S, hS, ic, hic, h1⟩]
    · rfl
  · rfl

theorem fwdGot_local {v v' : Fin n → ℕ → St} {r : Fin n} (hr : v r = v' r) (h : ∀ q : Fin n, GhostOf gm s dist r q → v q = v' q) :
    fwdGot P gm s dist n v r = fwdGot P gm s dist n v' r := by
  unfold fwdGot
  split
  · funext i
    unfold rankArray
    rw [allOf_eq (fun _ => hr), ghostAfter_local h]
  · rfl

theorem gradsGot_local {v v' : Fin n → ℕ → Gr} {r : Fin n} (h : ∀ q : Fin n, GhostOf gm s dist r q → v q = v' q) : gradsGot gm s dist n v r = gradsGot gm s dist n v' r := by
  funext i
  unfold gradsGot
  rw [ghostAfter_local h]

theorem ghostAdd_local {v v' : Fin n → ℕ → St} {r : Fin n} (hr : v r = v' r) (h : ∀ q : Fin n, GhostOf gm s dist q r → v q = v' q) :
    ghostAdd gm s dist n (allOf n v) r = ghostAdd gm s dist n (allOf n v') r := by
  funext l
  unfold ghostAdd
  rw [allOf_eq fun _ => hr]
  congr 1
  refine Finset.sum_congr rfl fun q hq => ?_
  split
  · rename_i S hS
    refine Finset.sum_congr rfl fun ic hic => ?_
    split_ifs with hl
    · have hoff : offset gm s dist (r + 1) = offset gm s dist r + localSize gm s dist r := Finset.sum_range_succ _ _
      rw [allOf_eq fun hq => h ⟨q, hq⟩ ⟨S, hS, ic, Finset.mem_range.1 hic, by omega, by omega⟩]
    · rfl
  · rfl

theorem facesGot_local {v v' : Fin n → ℕ → St} {r : Fin n} (h : ∀ q : Fin n, (∃ g, ((q : ℕ), g) ∈ subTab gm s dist r) → v q = v' q) :
    facesGot P gm s dist n v r = facesGot P gm s dist n v' r := by
  funext k
  unfold facesGot
  split_ifs
  · split
    · rename_i q g hqg
      rw [allOf_eq fun hq => h ⟨q, hq⟩ ⟨g, List.mem_of_getElem? hqg⟩]
    · rfl
  · rfl

theorem Iter.local_of {L X : Type} [Inhabited X] {I : Iter n L X} {nb : ℕ → Fin n → Fin n → Prop} (k : Kind) (c : Conf)
    (h1 : ∀ j, j < I.p → ∀ v v' r, (∀ q, q = r ∨ nb j r q → v q = v' q) → I.exch j v r = I.exch j v' r) (h2 : ∀ j, I.p ≤ j → ∀ r q, nb j r q) : (I.world k c).Local nb := by
  intro j v v' r h
  simp only [Iter.world]
  split_ifs with hj
  · rw [h1 j hj _ (fun q => (v' q).1) r fun q hq => congrArg Prod.fst (h q hq)]
  · rw [show v = v' from funext fun q => h q (.inr (h2 j (not_lt.1 hj) r q))]

section part
variable (hc : Conforming gm) (hcn : gm.nconnface = 0) (ht : gm.nbtag ≤ 4) (h : topological gm = .ok s)
include hc hcn ht h

theorem faces_shares {r q : ℕ} (hq : ∃ g, (q, g) ∈ subTab gm s dist r) : Shares gm dist r q := by
  obtain ⟨g, hg⟩ := hq
  obtain ⟨ic, hic⟩ := List.mem_iff_getElem?.1 hg
  obtain ⟨S, hS, -⟩ := restrict_spec hc hcn ht h dist r
  obtain ⟨g, f, j, k, -, -, -, r1, r2, r3, -⟩ := subTab_row hc hcn ht h hS hic
  exact ⟨_, _, r1, r2, r3⟩

variable (hmono : ∀ i j, i < j → j < gm.nelem → dist i ≤ dist j)
include hmono

theorem ghostOf_shares {r q : ℕ} (hq : GhostOf gm s dist r q) : Shares gm dist r q := by
  obtain ⟨S, hS, ic, hic, h1, h2⟩ := hq
  obtain ⟨S', hS', hsub, hcon, -⟩ := restrict_spec hc hcn ht h dist r
  rw [hS] at hS'; cases hS'
  obtain ⟨g, j, k, r1, r2, -, -, r5, -⟩ := hcon.row ic hic
  refine ⟨_, _, r2, (cells_lt hc hcn ht h hS r1).2.2, ?_⟩
  rw [r5] at h1 h2
  obtain ⟨Sj, hSj, hsubj, -⟩ := restrict_spec hc hcn ht h dist (dist j)
  obtain ⟨l, hl⟩ := List.mem_iff_getElem?.1 ((hsubj.cells j).2 ⟨r2.2.1.1, rfl⟩)
  have hp := position_eq hc hcn ht h hSj hl
  rw [position_id_iff.2 hmono j r2.2.1.1] at hp
  have hlt : l < localSize gm s dist (dist j) := by simp only [localSize, hSj]; exact (cells_lt hc hcn ht h hSj hl).1
  have hoff : offset gm s dist (dist j + 1) = offset gm s dist (dist j) + localSize gm s dist (dist j) := Finset.sum_range_succ _ _
  show dist j = q
  rcases lt_trichotomy (dist j) q with hlt' | heq | hgt
  · have := offset_mono (gm := gm) (s := s) (dist := dist) _ _ (Nat.succ_le_of_lt hlt')
    simp only [Nat.succ_eq_add_one] at this
    omega
  · exact heq
  · have := offset_mono (gm := gm) (s := s) (dist := dist) _ _ (Nat.succ_le_of_lt hgt)
    simp only [Nat.succ_eq_add_one] at this
    omega

/-- In all four steady solvers what a process receives in an exchange depends only on itself and the processes that have cells next to its own. -/
theorem waits_local (k : Kind) (c : Conf) :
    ((explicitIter P gm s dist n).world k c).Local (waits gm dist n fun j => 2 ≤ j) ∧
    (∀ JF relax ksp, ((implicitIter P gm s dist n JF relax ksp).world k c).Local (waits gm dist n fun j => j = 1 ∨ 3 ≤ j)) ∧
    ((explicit2Iter P gm s dist n gs R).world k c).Local (waits gm dist n fun j => 4 ≤ j) ∧
    (∀ JF relax ksp, ((implicit2Iter P gm s dist n gs R JF relax ksp).world k c).Local (waits gm dist n fun j => j = 3 ∨ 5 ≤ j)) := by
  have fwd : ∀ {V : Type} {v v' : Fin n → V} {r : Fin n} {all : ℕ → Prop} {j : ℕ}, (∀ q, q = r ∨ waits gm dist n all j r q → v q = v' q) →
      v r = v' r ∧ (∀ q : Fin n, GhostOf gm s dist r q → v q = v' q) ∧ (∀ q : Fin n, GhostOf gm s dist q r → v q = v' q) ∧
        ∀ q : Fin n, (∃ g, ((q : ℕ), g) ∈ subTab gm s dist r) → v q = v' q := fun hv =>
    ⟨hv _ (.inl rfl), fun q hq => hv q (.inr (.inr (ghostOf_shares hc hcn ht h hmono hq))),
      fun q hq => hv q (.inr (.inr (ghostOf_shares hc hcn ht h hmono hq).symm)), fun q hq => hv q (.inr (.inr (faces_shares hc hcn ht h hq)))⟩
  refine ⟨Iter.local_of k c (fun j hj v v' r hv => ?_) fun j hj r q => .inl hj,
    fun JF relax ksp => Iter.local_of k c (fun j hj v v' r hv => ?_) fun j hj r q => .inl (.inr hj),
    Iter.local_of k c (fun j hj v v' r hv => ?_) fun j hj r q => .inl hj,
    fun JF relax ksp => Iter.local_of k c (fun j hj v v' r hv => ?_) fun j hj r q => .inl (.inr hj)⟩
  · obtain ⟨a1, a2, a3, a4⟩ := fwd hv
    match j, hj with
    | 0, _ => exact ghostAdd_local a1 a3
    | 1, _ => exact fwdGot_local a1 a2
    | j + 2, hj => exact absurd hj (by show ¬ j + 2 < 2; omega)
  · obtain ⟨a1, a2, a3, a4⟩ := fwd hv
    match j, hj with
    | 0, _ => exact Prod.ext (ghostAdd_local (v := fun q => (v q).1) (v' := fun q => (v' q).1) (congrArg _ a1) fun q hq => congrArg _ (a3 q hq)) rfl
    | 1, _ => rw [show v = v' from funext fun q => hv q (.inr (.inl (.inl rfl)))]
    | 2, _ => exact Prod.ext (fwdGot_local (v := fun q => (v q).1) (v' := fun q => (v' q).1) (congrArg _ a1) fun q hq => congrArg _ (a2 q hq)) rfl
    | j + 3, hj => exact absurd hj (by show ¬ j + 3 < 3; omega)
  · obtain ⟨a1, a2, a3, a4⟩ := fwd hv
    match j, hj with
    | 0, _ => exact Prod.ext rfl (gradsGot_local (v := fun q => (v q).2) (v' := fun q => (v' q).2) fun q hq => congrArg _ (a2 q hq))
    | 1, _ => exact Prod.ext (facesGot_local (v := fun q => (v q).1) (v' := fun q => (v' q).1) fun q hq => congrArg _ (a4 q hq)) rfl
    | 2, _ => exact Prod.ext (ghostAdd_local (v := fun q => (v q).1) (v' := fun q => (v' q).1) (congrArg _ a1) fun q hq => congrArg _ (a3 q hq)) rfl
    | 3, _ => exact Prod.ext (fwdGot_local (v := fun q => (v q).1) (v' := fun q => (v' q).1) (congrArg _ a1) fun q hq => congrArg _ (a2 q hq)) rfl
    | j + 4, hj => exact absurd hj (by show ¬ j + 4 < 4; omega)
  · obtain ⟨a1, a2, a3, a4⟩ := fwd hv
    match j, hj with
    | 0, _ => exact Prod.ext rfl (Prod.ext (gradsGot_local (v := fun q => (v q).2.1) (v' := fun q => (v' q).2.1) fun q hq => by show (v q).2.1 = (v' q).2.1; rw [a2 q hq]) rfl)
    | 1, _ => exact Prod.ext (facesGot_local (v := fun q => (v q).1) (v' := fun q => (v' q).1) fun q hq => congrArg _ (a4 q hq)) rfl
    | 2, _ => exact Prod.ext (ghostAdd_local (v := fun q => (v q).1) (v' := fun q => (v' q).1) (congrArg _ a1) fun q hq => congrArg _ (a3 q hq)) rfl
    | 3, _ => rw [show v = v' from funext fun q => hv q (.inr (.inl (.inl rfl)))]
    | 4, _ => exact Prod.ext (fwdGot_local (v := fun q => (v q).1) (v' := fun q => (v' q).1) (congrArg _ a1) fun q hq => congrArg _ (a2 q hq)) rfl
    | j + 5, hj => exact absurd hj (by show ¬ j + 5 < 5; omega)

/-- C118, waiting for neighbours: in all four steady solvers what a process receives in an exchange depends only on itself and the processes that have cells next to its own. Hence whatever
holds at the end of all executions in which exchanges complete for all at once holds at the end of all executions in which a process waits in exchanges only for these, and no
process waits for ever. -/
theorem C118_waits_partial (k : Kind) (c : Conf) :
    (∀ Q J, ((explicitIter P gm s dist n).world k c).Fine Q J → ((explicitIter P gm s dist n).world k c).NFine (waits gm dist n fun j => 2 ≤ j) Q fun r => (J r, [])) ∧
    (∀ JF relax ksp Q J, ((implicitIter P gm s dist n JF relax ksp).world k c).Fine Q J →
      ((implicitIter P gm s dist n JF relax ksp).world k c).NFine (waits gm dist n fun j => j = 1 ∨ 3 ≤ j) Q fun r => (J r, [])) ∧
    (∀ Q J, ((explicit2Iter P gm s dist n gs R).world k c).Fine Q J → ((explicit2Iter P gm s dist n gs R).world k c).NFine (waits gm dist n fun j => 4 ≤ j) Q fun r => (J r, [])) ∧
    (∀ JF relax ksp Q J, ((implicit2Iter P gm s dist n gs R JF relax ksp).world k c).Fine Q J →
      ((implicit2Iter P gm s dist n gs R JF relax ksp).world k c).NFine (waits gm dist n fun j => j = 3 ∨ 5 ≤ j) Q fun r => (J r, [])) := by
  obtain ⟨l1, l2, l3, l4⟩ := waits_local (P := P) (n := n) (gs := gs) (R := R) hc hcn ht h hmono k c
  exact ⟨fun Q J hf => World.C118_neighbours l1 hf, fun JF relax ksp Q J hf => World.C118_neighbours (l2 JF relax ksp) hf, fun Q J hf => World.C118_neighbours l3 hf,
    fun JF relax ksp Q J hf => World.C118_neighbours (l4 JF relax ksp) hf⟩

end part
end solvers

/-! ### Examples -/

/-- Hypotheses of `C118_neighbours` are met: `meet`, each process waiting for the other. -/
example (k : Kind) (c : Conf) (u : Fin 2 → ℝ × ℝ) : ∃ N o, Loop (Ode.cond c) (body k meet.lock c) (init k c u) N o ∧
    (meet.world k c).NFine (fun _ _ _ => True) (fun t => ∀ r, t r = .ended (o.map fun m => view m r)) fun r => (.at 0 (init k c (u r)) (u r), []) := by
  obtain ⟨N, o, h⟩ := loop_total k meet.lock c u
  exact ⟨N, o, h, World.C118_neighbours (fun c v v' r hv => by rw [show v = v' from funext fun q => hv q (.inr trivial)]) (Iter.C118_lockstep (by omega) (fun a b J q => rfl) h)⟩

/-- Three processes in a row; each has a number, adds to it those of its neighbours and ends. The third first works on its own. -/
def chain : World 3 (Option ℕ × ℕ) ℕ where
  act := fun _ x => match x.1 with
    | some 0 => .coll 0 x.2 fun y => (none, y)
    | some (d + 1) => .loc (some d, x.2)
    | none => .halt
  reply := fun _ v r => if r = 1 then v 0 + v 1 + v 2 else if r = 0 then v 0 + v 1 else v 1 + v 2

/-- Waiting for neighbours gives processes more ways to proceed: the first two have entered the operation, the third has not; the first can leave it, while it cannot complete for all. All
executions end with the same numbers. -/
example : (∀ s', chain.Step (fun r => if r = 2 then (some 1, 7) else (some 0, 5)) s' → s' = fun r => if r = 2 then (some 0, 7) else (some 0, 5)) ∧
    (∃ s', chain.NStep (fun _ r q => r = 1 ∨ q = 1) (fun r => (if r = 2 then (some 1, 7) else (some 0, 5), [])) s' ∧ (s' 0).1 = (none, 10)) ∧
    chain.NFine (fun _ r q => r = 1 ∨ q = 1) (fun t => t = fun r => (none, if r = 1 then 17 else if r = 0 then 10 else 12))
      fun r => (if r = 2 then (some 1, 7) else (some 0, 5), []) := by
  refine ⟨fun s' hs => ?_, ?_, ?_⟩
  · cases hs with
    | @loc r l hl =>
      by_cases hr : r = 2
      · subst hr
        simp only [chain, if_true] at hl
        cases hl
        funext q
        by_cases hq : q = 2
        · subst hq; simp
        · simp [hq]
      · simp only [chain, hr, if_false] at hl; cases hl
    | @coll c v k hv =>
      have := hv 2
      simp [chain] at this
  · refine ⟨_, .coll (r := 0) (c := 0) (v := 5) (k := fun y => (none, y)) (fun q => if q = 2 then 0 else 5) rfl fun q hq => ?_, ?_⟩
    · have hq2 : q ≠ 2 := by
        rintro rfl
        rcases hq with hq | hq | hq <;> exact absurd hq (by decide)
      simp [World.posted, chain, hq2]
    · simp [chain]
  · refine World.C118_neighbours (fun c v v' r hv => ?_) (World.runs_of_own (b := fun r => (some 0, if r = 2 then 7 else 5)) (d := fun r => if r = 2 then 1 else 0) (fun r => ?_) (fun r l => ?_)
      (World.runs_of_coll (by omega) (c := 0) (v := fun r => if r = 2 then 7 else 5) (k := fun _ y => (none, y)) (fun r => rfl) (World.fine_of_ended (by omega) (fun r => rfl) ?_)))
    · have h1 : v 1 = v' 1 := hv 1 (.inr (.inr rfl))
      fin_cases r
      · have := hv 0 (.inl rfl); simp [chain, h1, this]
      · have h0 := hv 0 (.inr (.inl rfl)); have h2 := hv 2 (.inr (.inl rfl)); simp [chain, h0, h1, h2]
      · have := hv 2 (.inl rfl); simp [chain, h1, this]
    · by_cases hr : r = 2
      · subst hr; exact .step rfl .refl
      · simp only [hr, if_false]; exact .refl
    · intro h; cases h
    · funext r; fin_cases r <;> simp [chain]

/-- Hypotheses of `C118_waits_partial` are met: four triangles on two ranks, whatever the configuration. -/
example (c : Conf) : ∃ s, topological FV.Geo.cross = .ok s ∧ ∃ N o, Loop (Ode.cond c) (body forwardEuler (several (air1 (rest 1)) FV.Geo.cross s (fun i => i / 2) 2) c)
      (init forwardEuler c (split FV.Geo.cross s (fun i => i / 2) bump)) N o ∧
    ((explicitIter (air1 (rest 1)) FV.Geo.cross s (fun i => i / 2) 2).world forwardEuler c).NFine (waits FV.Geo.cross (fun i => i / 2) 2 fun j => 2 ≤ j) (EndAs FV.Geo.cross s (fun i => i / 2) 2 o)
      fun r => (.at 0 (init forwardEuler c (heldOf FV.Geo.cross s (fun i => i / 2) 2 (split FV.Geo.cross s (fun i => i / 2) bump) r))
        (heldOf FV.Geo.cross s (fun i => i / 2) 2 (split FV.Geo.cross s (fun i => i / 2) bump) r), []) := by
  obtain ⟨s, hs, -⟩ := FV.Geo.cross_topological
  have hne : FV.Geo.cross.nelem = 4 := by decide +kernel
  have hev := rank_evals (n := 2) cross_conforming rfl (by decide +kernel) hs FV.Geo.cross_nozero (cross_all hs _) (dist := fun i => i / 2)
    (fun g hg => by show g / 2 < 2; omega) (fun i j h _ => Nat.div_le_div_right h.le) (air1 (rest 1))
  obtain ⟨⟨N, o, h1⟩, h2⟩ := C118_explicit two_pos (hev.1 fun k _ => rfl) (c := c) (holds_heldOf FV.Geo.cross s (fun i => i / 2) 2 (split FV.Geo.cross s (fun i => i / 2) bump))
  exact ⟨s, hs, N, o, h1, (C118_waits_partial (gs := .wls) (R := .linear) cross_conforming rfl (by decide +kernel) hs (fun i j h _ => Nat.div_le_div_right h.le) forwardEuler c).1 _ _ (h2 N o h1)⟩

end Par
end FVENS
