import Verif.Mesh.Check

/-!
# Message passing between ranks (transport layer for C40)

Model of the use of MPI in src/linalg/tracevector.cpp:107-152 (index exchange) and 214-330 (value exchange): in each
phase a rank first sends one message to each neighbour (`MPI_Isend`), then receives one message from each (`MPI_Irecv`
with `MPI_ANY_TAG`, `MPI_Wait`). MPI is assumed to be reliable and non-overtaking for each pair of ranks, so that the
messages from one rank to another form a queue; otherwise the order of all steps is arbitrary. Sends complete
independently of the receiver's progress.
-/

namespace FVENS
namespace Par

/-- State of one rank: number of the current phase, neighbours still to be sent to and received from, the messages
received and (for the statement of properties) those sent, by phase and partner. -/
structure Rank (M : Type*) where
  phase : ℕ
  toSend : List ℕ
  toRecv : List ℕ
  inbox : ℕ → ℕ → Option M
  sent : ℕ → ℕ → Option M

/-- State of all ranks and message queues (`chan src dst`). -/
structure Config (M : Type*) where
  rank : ℕ → Rank M
  chan : ℕ → ℕ → List M

/-- The program: number of ranks, neighbour lists, number of phases, and the content of a message sent by a rank in a phase to a
neighbour, which may depend on all it has received before. -/
structure Prog (M : Type*) where
  n : ℕ
  nb : ℕ → List ℕ
  phases : ℕ
  content : ℕ → ℕ → (ℕ → ℕ → Option M) → ℕ → M

variable {M : Type*}

/-- Store in a two-index log. -/
def put (f : ℕ → ℕ → Option M) (t q : ℕ) (m : M) : ℕ → ℕ → Option M :=
  fun a b => if a = t ∧ b = q then some m else f a b

/-- The initial state. -/
def Prog.start (P : Prog M) : Config M :=
  ⟨fun r => ⟨0, P.nb r, P.nb r, fun _ _ => none, fun _ _ => none⟩, fun _ _ => []⟩

/-- One step of one rank, src/linalg/tracevector.cpp:119-131, 247-251 (send), 133-152, 272-287, 294-299 (receive). -/
inductive Step (P : Prog M) : Config M → Config M → Prop
  | send (c : Config M) (r d : ℕ) (rest : List ℕ) (hn : r < P.n) (h : (c.rank r).toSend = d :: rest) :
      Step P c ⟨Function.update c.rank r { c.rank r with
          toSend := rest
          sent := put (c.rank r).sent (c.rank r).phase d (P.content r (c.rank r).phase (c.rank r).inbox d) },
        fun a b => if a = r ∧ b = d then c.chan a b ++ [P.content r (c.rank r).phase (c.rank r).inbox d] else c.chan a b⟩
  | recv (c : Config M) (r s : ℕ) (rest : List ℕ) (m : M) (q : List M) (hn : r < P.n) (h0 : (c.rank r).toSend = [])
      (h : (c.rank r).toRecv = s :: rest) (hc : c.chan s r = m :: q) :
      Step P c ⟨Function.update c.rank r { c.rank r with
          toRecv := rest
          inbox := put (c.rank r).inbox (c.rank r).phase s m },
        fun a b => if a = s ∧ b = r then q else c.chan a b⟩
  | next (c : Config M) (r : ℕ) (hn : r < P.n) (h0 : (c.rank r).toSend = []) (h1 : (c.rank r).toRecv = [])
      (hp : (c.rank r).phase + 1 < P.phases) :
      Step P c ⟨Function.update c.rank r { c.rank r with
          phase := (c.rank r).phase + 1, toSend := P.nb r, toRecv := P.nb r }, c.chan⟩

/-- States reachable under any scheduling of the ranks. -/
inductive Reach (P : Prog M) : Config M → Prop
  | start : Reach P P.start
  | step {c c' : Config M} : Reach P c → Step P c c' → Reach P c'

/-- Number of messages `s` has sent to `d`. -/
def nSent (c : Config M) (s d : ℕ) : ℕ := (c.rank s).phase + if d ∈ (c.rank s).toSend then 0 else 1

/-- Number of messages `d` has received from `s`. -/
def nRecv (c : Config M) (s d : ℕ) : ℕ := (c.rank d).phase + if s ∈ (c.rank d).toRecv then 0 else 1

/-- The invariant. -/
structure Inv (P : Prog M) (c : Config M) : Prop where
  sendSub : ∀ r, (c.rank r).toSend <:+ P.nb r
  recvSub : ∀ r, (c.rank r).toRecv <:+ P.nb r
  order : ∀ r, (c.rank r).toSend ≠ [] → (c.rank r).toRecv = P.nb r
  chan : ∀ s d, d ∈ P.nb s → s ∈ P.nb d → nRecv c s d ≤ nSent c s d ∧ (c.chan s d).length = nSent c s d - nRecv c s d ∧
    ∀ i (h : i < (c.chan s d).length), (c.rank s).sent (nRecv c s d + i) d = some ((c.chan s d)[i])
  sentOk : ∀ s d t, d ∈ P.nb s → ((c.rank s).sent t d).isSome = decide (t < nSent c s d)
  inbox : ∀ s d, d ∈ P.nb s → s ∈ P.nb d → ∀ t, t < nRecv c s d → (c.rank d).inbox t s = (c.rank s).sent t d
  inboxNone : ∀ s d t, s ∈ P.nb d → nRecv c s d ≤ t → (c.rank d).inbox t s = none

theorem put_same (f : ℕ → ℕ → Option M) (t q : ℕ) (m : M) : put f t q m t q = some m := by simp [put]

theorem put_ne (f : ℕ → ℕ → Option M) {t q t' q' : ℕ} (m : M) (h : ¬ (t' = t ∧ q' = q)) : put f t q m t' q' = f t' q' := by
  simp [put, h]

theorem inv_start (P : Prog M) : Inv P P.start where
  sendSub := fun _ => List.suffix_rfl
  recvSub := fun _ => List.suffix_rfl
  order := fun _ _ => rfl
  chan := fun s d h1 h2 => by simp [nSent, nRecv, Prog.start, h1, h2]
  sentOk := fun s d t h => by simp [nSent, Prog.start, h]
  inbox := fun s d h1 h2 t ht => by simp [nRecv, Prog.start, h2] at ht
  inboxNone := fun _ _ _ _ _ => rfl

theorem inv_step {P : Prog M} (hnd : ∀ r, (P.nb r).Nodup) (hself : ∀ r, r ∉ P.nb r) {c c' : Config M} (hi : Inv P c) (hs : Step P c c') : Inv P c' := by
  cases hs with
  | send r d rest hn h =>
    have hsuf := hi.sendSub r
    rw [h] at hsuf
    have hdr : d ∈ P.nb r := hsuf.subset (by simp)
    have hnodup : (d :: rest).Nodup := hsuf.sublist.nodup (hnd r)
    have hdrest : d ∉ rest := (List.nodup_cons.1 hnodup).1
    have hrd : r ≠ d := fun e => hself r (e ▸ hdr)
    set m := P.content r (c.rank r).phase (c.rank r).inbox d with hm
    set c1 : Config M := ⟨Function.update c.rank r { c.rank r with
          toSend := rest, sent := put (c.rank r).sent (c.rank r).phase d m },
        fun a b => if a = r ∧ b = d then c.chan a b ++ [m] else c.chan a b⟩ with hc1
    have hr : c1.rank r = { c.rank r with toSend := rest, sent := put (c.rank r).sent (c.rank r).phase d m } := by
      simp [hc1]
    have ho : ∀ a, a ≠ r → c1.rank a = c.rank a := fun a ha => by simp [hc1, ha]
    have hphase : ∀ a, (c1.rank a).phase = (c.rank a).phase := fun a => by
      by_cases ha : a = r
      · subst ha; rw [hr]
      · rw [ho a ha]
    have hrecv : ∀ a, (c1.rank a).toRecv = (c.rank a).toRecv := fun a => by
      by_cases ha : a = r
      · subst ha; rw [hr]
      · rw [ho a ha]
    have hinb : ∀ a, (c1.rank a).inbox = (c.rank a).inbox := fun a => by
      by_cases ha : a = r
      · subst ha; rw [hr]
      · rw [ho a ha]
    have hnr : ∀ a b, nRecv c1 a b = nRecv c a b := fun a b => by simp only [nRecv, hphase, hrecv]
    have hns : ∀ a b, ¬ (a = r ∧ b = d) → b ∈ P.nb a → nSent c1 a b = nSent c a b := by
      intro a b hab _
      by_cases ha : a = r
      · subst ha
        have hbd : b ≠ d := fun e => hab ⟨rfl, e⟩
        simp only [nSent, hphase]
        rw [hr, h]
        simp [hbd]
      · simp only [nSent, ho a ha]
    have hns1 : nSent c1 r d = (c.rank r).phase + 1 := by simp [nSent, hr, hdrest]
    have hns0 : nSent c r d = (c.rank r).phase := by simp [nSent, h]
    have hch : ∀ a b, ¬ (a = r ∧ b = d) → c1.chan a b = c.chan a b := fun a b hab => by simp [hc1, hab]
    have hch1 : c1.chan r d = c.chan r d ++ [m] := by simp [hc1]
    have hsent : ∀ a t b, ¬ (a = r ∧ t = (c.rank r).phase ∧ b = d) → (c1.rank a).sent t b = (c.rank a).sent t b := by
      intro a t b hab
      by_cases ha : a = r
      · subst ha; rw [hr]; exact put_ne _ _ (fun e => hab ⟨rfl, e.1, e.2⟩)
      · rw [ho a ha]
    have hsent1 : (c1.rank r).sent (c.rank r).phase d = some m := by rw [hr]; exact put_same _ _ _ _
    refine ⟨?_, ?_, ?_, ?_, ?_, ?_, ?_⟩
    · intro a
      by_cases ha : a = r
      · subst ha; rw [hr]; exact (List.suffix_cons d rest).trans hsuf
      · rw [ho a ha]; exact hi.sendSub a
    · intro a; rw [hrecv]; exact hi.recvSub a
    · intro a hne
      rw [hrecv]
      by_cases ha : a = r
      · subst ha; exact hi.order a (by rw [h]; simp)
      · rw [ho a ha] at hne; exact hi.order a hne
    · intro a b h1 h2
      obtain ⟨k1, k2, k3⟩ := hi.chan a b h1 h2
      by_cases hab : a = r ∧ b = d
      · obtain ⟨rfl, rfl⟩ := hab
        rw [hnr, hns1, hch1]
        rw [hns0] at k1 k2
        refine ⟨by omega, by simp [k2]; omega, fun i hlt => ?_⟩
        rw [List.length_append, List.length_singleton, k2] at hlt
        by_cases hlast : i = (c.chan a b).length
        · subst hlast
          rw [show nRecv c a b + (c.chan a b).length = (c.rank a).phase by omega, hsent1]
          simp
        · rw [hsent _ _ _ (by rintro ⟨_, e, _⟩; omega), k3 i (by omega), List.getElem_append_left]
      · rw [hnr, hns a b hab h1, hch a b hab]
        refine ⟨k1, k2, fun i hlt => ?_⟩
        rw [hsent _ _ _ (fun e => hab ⟨e.1, e.2.2⟩)]
        exact k3 i hlt
    · intro a b t h1
      by_cases hab : a = r ∧ b = d
      · obtain ⟨rfl, rfl⟩ := hab
        by_cases ht : t = (c.rank a).phase
        · subst ht; rw [hsent1, hns1]; simp
        · rw [hsent _ _ _ (fun e => ht e.2.1), hi.sentOk a b t h1, hns1, hns0]
          exact decide_eq_decide.2 (by omega)
      · rw [hsent _ _ _ (fun e => hab ⟨e.1, e.2.2⟩), hi.sentOk a b t h1, hns a b hab h1]
    · intro a b h1 h2 t ht
      rw [hnr] at ht
      rw [hinb, hi.inbox a b h1 h2 t ht]
      by_cases hab : a = r ∧ t = (c.rank r).phase ∧ b = d
      · obtain ⟨rfl, rfl, rfl⟩ := hab
        have := (hi.chan a b h1 h2).1
        rw [hns0] at this; omega
      · rw [hsent _ _ _ hab]
    · intro a b t h1 ht
      rw [hinb]; rw [hnr] at ht; exact hi.inboxNone a b t h1 ht
  | recv r s rest m q hn h0 h hc =>
    have hsuf := hi.recvSub r
    rw [h] at hsuf
    have hsr : s ∈ P.nb r := hsuf.subset (by simp)
    have hnodup : (s :: rest).Nodup := hsuf.sublist.nodup (hnd r)
    have hsrest : s ∉ rest := (List.nodup_cons.1 hnodup).1
    have hrs : r ≠ s := fun e => hself r (e ▸ hsr)
    set c1 : Config M := ⟨Function.update c.rank r { c.rank r with
          toRecv := rest, inbox := put (c.rank r).inbox (c.rank r).phase s m },
        fun a b => if a = s ∧ b = r then q else c.chan a b⟩ with hc1
    have hr : c1.rank r = { c.rank r with toRecv := rest, inbox := put (c.rank r).inbox (c.rank r).phase s m } := by
      simp [hc1]
    have ho : ∀ a, a ≠ r → c1.rank a = c.rank a := fun a ha => by simp [hc1, ha]
    have hphase : ∀ a, (c1.rank a).phase = (c.rank a).phase := fun a => by
      by_cases ha : a = r
      · subst ha; rw [hr]
      · rw [ho a ha]
    have hsend : ∀ a, (c1.rank a).toSend = (c.rank a).toSend := fun a => by
      by_cases ha : a = r
      · subst ha; rw [hr]
      · rw [ho a ha]
    have hsent : ∀ a, (c1.rank a).sent = (c.rank a).sent := fun a => by
      by_cases ha : a = r
      · subst ha; rw [hr]
      · rw [ho a ha]
    have hns : ∀ a b, nSent c1 a b = nSent c a b := fun a b => by simp only [nSent, hphase, hsend]
    have hnr : ∀ a b, ¬ (a = s ∧ b = r) → nRecv c1 a b = nRecv c a b := by
      intro a b hab
      by_cases hb : b = r
      · subst hb
        have has : a ≠ s := fun e => hab ⟨e, rfl⟩
        simp only [nRecv, hphase]
        rw [hr, h]
        simp [has]
      · simp only [nRecv, ho b hb]
    have hnr1 : nRecv c1 s r = (c.rank r).phase + 1 := by simp [nRecv, hr, hsrest]
    have hnr0 : nRecv c s r = (c.rank r).phase := by simp [nRecv, h]
    have hch : ∀ a b, ¬ (a = s ∧ b = r) → c1.chan a b = c.chan a b := fun a b hab => by simp [hc1, hab]
    have hch1 : c1.chan s r = q := by simp [hc1]
    have hinb : ∀ a t b, ¬ (a = r ∧ t = (c.rank r).phase ∧ b = s) → (c1.rank a).inbox t b = (c.rank a).inbox t b := by
      intro a t b hab
      by_cases ha : a = r
      · subst ha; rw [hr]; exact put_ne _ _ (fun e => hab ⟨rfl, e.1, e.2⟩)
      · rw [ho a ha]
    have hinb1 : (c1.rank r).inbox (c.rank r).phase s = some m := by rw [hr]; exact put_same _ _ _ _
    refine ⟨?_, ?_, ?_, ?_, ?_, ?_, ?_⟩
    · intro a; rw [hsend]; exact hi.sendSub a
    · intro a
      by_cases ha : a = r
      · subst ha; rw [hr]; exact (List.suffix_cons s rest).trans hsuf
      · rw [ho a ha]; exact hi.recvSub a
    · intro a hne
      rw [hsend] at hne
      by_cases ha : a = r
      · subst ha; exact absurd h0 hne
      · rw [ho a ha]; exact hi.order a hne
    · intro a b h1 h2
      obtain ⟨k1, k2, k3⟩ := hi.chan a b h1 h2
      rw [hns, hsent]
      by_cases hab : a = s ∧ b = r
      · obtain ⟨rfl, rfl⟩ := hab
        rw [hnr1, hch1]
        rw [hnr0] at k1 k2 k3
        rw [hc] at k2
        simp only [List.length_cons] at k2
        refine ⟨by omega, by omega, fun i hlt => ?_⟩
        have := k3 (i + 1) (by rw [hc]; simp; omega)
        rw [show (c.rank b).phase + 1 + i = (c.rank b).phase + (i + 1) by omega, this]
        simp [hc]
      · rw [hnr a b hab, hch a b hab]; exact ⟨k1, k2, k3⟩
    · intro a b t h1; rw [hsent, hns]; exact hi.sentOk a b t h1
    · intro a b h1 h2 t ht
      rw [hsent]
      by_cases hab : a = s ∧ b = r
      · obtain ⟨rfl, rfl⟩ := hab
        rw [hnr1] at ht
        by_cases htp : t = (c.rank b).phase
        · subst htp
          rw [hinb1]
          have := (hi.chan a b h1 h2).2.2 0 (by rw [hc]; simp)
          rw [hnr0, Nat.add_zero] at this
          rw [this]; simp [hc]
        · rw [hinb _ _ _ (fun e => htp e.2.1)]
          exact hi.inbox a b h1 h2 t (by rw [hnr0]; omega)
      · rw [hnr a b hab] at ht
        rw [hinb _ _ _ (fun e => hab ⟨e.2.2, e.1⟩)]
        exact hi.inbox a b h1 h2 t ht
    · intro a b t h1 ht
      by_cases hab : a = s ∧ b = r
      · obtain ⟨rfl, rfl⟩ := hab
        rw [hnr1] at ht
        rw [hinb _ _ _ (by rintro ⟨_, e, _⟩; omega)]
        exact hi.inboxNone a b t h1 (by rw [hnr0]; omega)
      · rw [hnr a b hab] at ht
        rw [hinb _ _ _ (fun e => hab ⟨e.2.2, e.1⟩)]
        exact hi.inboxNone a b t h1 ht
  | next r hn h0 h1 hp =>
    set c1 : Config M := ⟨Function.update c.rank r { c.rank r with
          phase := (c.rank r).phase + 1, toSend := P.nb r, toRecv := P.nb r }, c.chan⟩ with hc1
    have hr : c1.rank r = { c.rank r with phase := (c.rank r).phase + 1, toSend := P.nb r, toRecv := P.nb r } := by
      simp [hc1]
    have ho : ∀ a, a ≠ r → c1.rank a = c.rank a := fun a ha => by simp [hc1, ha]
    have hsent : ∀ a, (c1.rank a).sent = (c.rank a).sent := fun a => by
      by_cases ha : a = r
      · subst ha; rw [hr]
      · rw [ho a ha]
    have hinb : ∀ a, (c1.rank a).inbox = (c.rank a).inbox := fun a => by
      by_cases ha : a = r
      · subst ha; rw [hr]
      · rw [ho a ha]
    have hns : ∀ a b, b ∈ P.nb a → nSent c1 a b = nSent c a b := by
      intro a b hb
      by_cases ha : a = r
      · subst ha; simp [nSent, hr, h0, hb]
      · simp only [nSent, ho a ha]
    have hnr : ∀ a b, a ∈ P.nb b → nRecv c1 a b = nRecv c a b := by
      intro a b ha
      by_cases hb : b = r
      · subst hb; simp [nRecv, hr, h1, ha]
      · simp only [nRecv, ho b hb]
    refine ⟨?_, ?_, ?_, ?_, ?_, ?_, ?_⟩
    · intro a
      by_cases ha : a = r
      · subst ha; rw [hr]
      · rw [ho a ha]; exact hi.sendSub a
    · intro a
      by_cases ha : a = r
      · subst ha; rw [hr]
      · rw [ho a ha]; exact hi.recvSub a
    · intro a hne
      by_cases ha : a = r
      · subst ha; rw [hr]
      · rw [ho a ha] at hne ⊢; exact hi.order a hne
    · intro a b h2 h3
      rw [hns a b h2, hnr a b h3, hsent]; exact hi.chan a b h2 h3
    · intro a b t h2; rw [hsent, hns a b h2]; exact hi.sentOk a b t h2
    · intro a b h2 h3 t ht
      rw [hinb, hsent]; rw [hnr a b h3] at ht; exact hi.inbox a b h2 h3 t ht
    · intro a b t h2 ht
      rw [hinb]; rw [hnr a b h2] at ht; exact hi.inboxNone a b t h2 ht

theorem inv_reach {P : Prog M} (hnd : ∀ r, (P.nb r).Nodup) (hself : ∀ r, r ∉ P.nb r) {c : Config M} (h : Reach P c) : Inv P c := by
  induction h with
  | start => exact inv_start P
  | step _ hs ih => exact inv_step hnd hself ih hs

/-- C40 (transport): for every scheduling, the message received in a phase from a neighbour is the one the
neighbour sent in the same phase. -/
theorem C40_transport {P : Prog M} (hnd : ∀ r, (P.nb r).Nodup) (hself : ∀ r, r ∉ P.nb r) (hsym : ∀ r s, s ∈ P.nb r → r ∈ P.nb s)
    {c : Config M} (h : Reach P c) {r s t : ℕ} (hs : s ∈ P.nb r) {m : M} (hm : (c.rank r).inbox t s = some m) :
    (c.rank s).sent t r = some m := by
  have hi := inv_reach hnd hself h
  by_cases ht : t < nRecv c s r
  · rw [← hm]; exact (hi.inbox s r (hsym r s hs) hs t ht).symm
  · rw [hi.inboxNone s r t hs (by omega)] at hm; cases hm

/-- All phases done. -/
def Done (P : Prog M) (c : Config M) (r : ℕ) : Prop :=
  (c.rank r).toSend = [] ∧ (c.rank r).toRecv = [] ∧ P.phases ≤ (c.rank r).phase + 1

theorem phase_bound {P : Prog M} {c : Config M} (h : Reach P c) (r : ℕ) : (c.rank r).phase = 0 ∨ (c.rank r).phase < P.phases := by
  induction h with
  | start => exact Or.inl rfl
  | step _ hs ih =>
    cases hs with
    | send r' d rest hn h =>
      by_cases hr : r = r'
      · subst hr; simpa using ih
      · simpa [Function.update, hr] using ih
    | recv r' s rest m q hn h0 h hc =>
      by_cases hr : r = r'
      · subst hr; simpa using ih
      · simpa [Function.update, hr] using ih
    | next r' hn h0 h1 hp =>
      by_cases hr : r = r'
      · subst hr; simp; omega
      · simpa [Function.update, hr] using ih

/-- C40 (no deadlock): as long as some rank has not finished, some rank can proceed. -/
theorem C40_no_deadlock {P : Prog M} (hnd : ∀ r, (P.nb r).Nodup) (hself : ∀ r, r ∉ P.nb r) (hsym : ∀ r s, s ∈ P.nb r → r ∈ P.nb s)
    (hlt : ∀ r, r < P.n → ∀ s ∈ P.nb r, s < P.n) {c : Config M} (h : Reach P c) {r : ℕ} (hr : r < P.n) (hnot : ¬ Done P c r) :
    ∃ c', Step P c c' := by
  have hi := inv_reach hnd hself h
  by_contra hstuck
  push Not at hstuck
  have key : ∀ t r, r < P.n → ¬ Done P c r → (c.rank r).phase = t → False := by
    intro t
    induction t using Nat.strong_induction_on with
    | _ t ih =>
      intro r hr hnot ht
      cases h0 : (c.rank r).toSend with
      | cons d rest => exact hstuck _ (Step.send c r d rest hr h0)
      | nil =>
        cases h1 : (c.rank r).toRecv with
        | nil =>
          by_cases hp : (c.rank r).phase + 1 < P.phases
          · exact hstuck _ (Step.next c r hr h0 h1 hp)
          · exact hnot ⟨h0, h1, by omega⟩
        | cons s rest =>
          have hsr : s ∈ P.nb r := (hi.recvSub r).subset (by rw [h1]; simp)
          have hsn := hlt r hr s hsr
          obtain ⟨k1, k2, k3⟩ := hi.chan s r (hsym r s hsr) hsr
          cases hc : c.chan s r with
          | cons m q => exact hstuck _ (Step.recv c r s rest m q hr h0 h1 hc)
          | nil =>
            rw [hc, List.length_nil] at k2
            have hnr : nRecv c s r = t := by simp [nRecv, h1, ht]
            have hns : nSent c s r = t := by omega
            unfold nSent at hns
            by_cases hmem : r ∈ (c.rank s).toSend
            · cases hs : (c.rank s).toSend with
              | nil => rw [hs] at hmem; simp at hmem
              | cons d rest' => exact hstuck _ (Step.send c s d rest' hsn hs)
            · rw [if_neg hmem] at hns
              refine ih (c.rank s).phase (by omega) s hsn ?_ rfl
              rintro ⟨e1, e2, e3⟩
              rcases phase_bound h r with hb | hb <;> omega
  exact key _ r hr hnot rfl

/-- Remaining steps of one rank. -/
def work (P : Prog M) (c : Config M) (r : ℕ) : ℕ :=
  (P.phases - 1 - (c.rank r).phase) * (2 * (P.nb r).length + 1) + (c.rank r).toSend.length + (c.rank r).toRecv.length

theorem work_step {P : Prog M} {c c' : Config M} (hs : Step P c c') :
    ∃ r, r < P.n ∧ work P c' r < work P c r ∧ ∀ a, a ≠ r → work P c' a = work P c a := by
  cases hs with
  | send r d rest hn h =>
    refine ⟨r, hn, ?_, fun a ha => by simp [work, Function.update, ha]⟩
    simp [work, h]
  | recv r s rest m q hn h0 h hc =>
    refine ⟨r, hn, ?_, fun a ha => by simp [work, Function.update, ha]⟩
    simp [work, h]
  | next r hn h0 h1 hp =>
    refine ⟨r, hn, ?_, fun a ha => by simp [work, Function.update, ha]⟩
    simp only [work, Function.update_self, h0, h1, List.length_nil, Nat.add_zero]
    obtain ⟨k, hk⟩ : ∃ k, P.phases - 1 - (c.rank r).phase = k + 1 := ⟨P.phases - 1 - (c.rank r).phase - 1, by omega⟩
    rw [hk, show P.phases - 1 - ((c.rank r).phase + 1) = k by omega, Nat.succ_mul k]
    generalize k * (2 * (P.nb r).length + 1) = x
    omega

/-- C40 (termination): every step lowers the total number of remaining steps, so every execution ends, and by
`C40_no_deadlock` it ends with all ranks finished. -/
theorem C40_terminates {P : Prog M} {c c' : Config M} (hs : Step P c c') :
    ((List.range P.n).map (work P c')).sum < ((List.range P.n).map (work P c)).sum := by
  obtain ⟨r, hr, h1, h2⟩ := work_step hs
  apply List.sum_lt_sum
  · intro a _
    by_cases ha : a = r
    · subst ha; exact h1.le
    · exact (h2 a ha).le
  · exact ⟨r, by simpa using hr, h1⟩

/-- If `q` does not list `r` as a neighbour, nothing ever arrives from it. -/
theorem no_message {P : Prog M} {q r : ℕ} (hq : r ∉ P.nb q) {c : Config M} (h : Reach P c) :
    c.chan q r = [] ∧ r ∉ (c.rank q).toSend ∧ ∀ t, (c.rank r).inbox t q = none := by
  induction h with
  | start => exact ⟨rfl, hq, fun _ => rfl⟩
  | step _ hs ih =>
    obtain ⟨i1, i2, i3⟩ := ih
    cases hs with
    | send a d rest hn h =>
      have hne : ¬ (q = a ∧ r = d) := by rintro ⟨rfl, rfl⟩; rw [h] at i2; simp at i2
      refine ⟨by simp [hne, i1], ?_, fun t => ?_⟩
      · by_cases ha : q = a
        · subst ha; rw [h] at i2; simp at i2 ⊢; exact i2.2
        · simpa [Function.update, ha] using i2
      · by_cases ha : r = a
        · subst ha; simpa using i3 t
        · simpa [Function.update, ha] using i3 t
    | recv a b rest m l hn h0 h hc =>
      have hne : ¬ (q = b ∧ r = a) := by rintro ⟨rfl, rfl⟩; rw [i1] at hc; cases hc
      refine ⟨by simp [hne, i1], ?_, fun t => ?_⟩
      · by_cases ha : q = a
        · subst ha; simpa using i2
        · simpa [Function.update, ha] using i2
      · by_cases ha : r = a
        · subst ha
          simp only [Function.update_self]
          rw [put_ne _ _ (fun e => hne ⟨e.2, rfl⟩)]; exact i3 t
        · simpa [Function.update, ha] using i3 t
    | next a hn h0 h1 hp =>
      refine ⟨i1, ?_, fun t => ?_⟩
      · by_cases ha : q = a
        · subst ha; simpa using hq
        · simpa [Function.update, ha] using i2
      · by_cases ha : r = a
        · subst ha; simpa using i3 t
        · simpa [Function.update, ha] using i3 t

/-- While a rank is in a phase, the neighbours it no longer waits for have been received from. -/
theorem received {P : Prog M} {c : Config M} (h : Reach P c) (r : ℕ) :
    (c.rank r).toRecv <:+ P.nb r ∧
    ∀ s ∈ P.nb r, s ∉ (c.rank r).toRecv → ((c.rank r).inbox (c.rank r).phase s).isSome := by
  induction h with
  | start => exact ⟨List.suffix_rfl, fun s hs hn => absurd hs hn⟩
  | step _ hs ih =>
    obtain ⟨i1, i2⟩ := ih
    cases hs with
    | send a d rest hn h =>
      by_cases ha : r = a
      · subst ha; simpa using ⟨i1, i2⟩
      · simpa [Function.update, ha] using ⟨i1, i2⟩
    | recv a b rest m l hn h0 h hc =>
      by_cases ha : r = a
      · subst ha
        rw [h] at i1
        simp only [Function.update_self]
        refine ⟨(List.suffix_cons b rest).trans i1, fun s hs hns => ?_⟩
        by_cases hsb : s = b
        · subst hsb; rw [put_same]; rfl
        · rw [put_ne _ _ (fun e => hsb e.2)]
          exact i2 s hs (by rw [h]; simp [hsb, hns])
      · simpa [Function.update, ha] using ⟨i1, i2⟩
    | next a hn h0 h1 hp =>
      by_cases ha : r = a
      · subst ha
        simp only [Function.update_self]
        exact ⟨List.suffix_rfl, fun s hs hns => absurd hs hns⟩
      · simpa [Function.update, ha] using ⟨i1, i2⟩

/-- If `r` lists `q` as a neighbour but not conversely, `r` never finishes any phase. -/
theorem one_sided_blocks {P : Prog M} {q r : ℕ} (hr : q ∈ P.nb r) (hq : r ∉ P.nb q) {c : Config M}
    (h : Reach P c) : ¬ Done P c r := by
  rintro ⟨_, h2, _⟩
  have h3 := (received h r).2 q hr (by rw [h2]; simp)
  rw [(no_message hq h).2.2] at h3
  cases h3

/-- What a rank had received before phase `t`. -/
def before (t : ℕ) (f : ℕ → ℕ → Option M) : ℕ → ℕ → Option M := fun a b => if a < t then f a b else none

theorem inbox_le {P : Prog M} {c : Config M} (h : Reach P c) (r : ℕ) :
    (∀ t q, (c.rank r).phase < t → (c.rank r).inbox t q = none) ∧
    ((c.rank r).toSend ≠ [] → ∀ q, (c.rank r).inbox (c.rank r).phase q = none) := by
  induction h with
  | start => exact ⟨fun _ _ _ => rfl, fun _ _ => rfl⟩
  | step _ hs ih =>
    obtain ⟨i1, i2⟩ := ih
    cases hs with
    | send a d rest hn h =>
      by_cases ha : r = a
      · subst ha
        simp only [Function.update_self]
        exact ⟨i1, fun _ => i2 (by rw [h]; simp)⟩
      · simpa only [Function.update_of_ne ha] using ⟨i1, i2⟩
    | recv a b rest m l hn h0 h hc =>
      by_cases ha : r = a
      · subst ha
        simp only [Function.update_self]
        refine ⟨fun t q ht => ?_, fun hne => absurd h0 hne⟩
        rw [put_ne _ _ (fun e => by omega)]; exact i1 t q ht
      · simpa only [Function.update_of_ne ha] using ⟨i1, i2⟩
    | next a hn h0 h1 hp =>
      by_cases ha : r = a
      · subst ha
        simp only [Function.update_self]
        exact ⟨fun t q ht => i1 t q (by omega), fun _ q => i1 _ q (by omega)⟩
      · simpa only [Function.update_of_ne ha] using ⟨i1, i2⟩

/-- Every message sent is the program's message for that phase, computed from what its sender had received in earlier
phases. -/
theorem sent_content {P : Prog M} {c : Config M} (h : Reach P c) (r t d : ℕ) {m : M} (hm : (c.rank r).sent t d = some m) :
    t ≤ (c.rank r).phase ∧ m = P.content r t (before t (c.rank r).inbox) d := by
  induction h generalizing m with
  | start => cases hm
  | @step c c' hc hs ih =>
    obtain ⟨j1, j2⟩ := inbox_le hc r
    cases hs with
    | send a e rest hn h =>
      by_cases ha : r = a
      · subst ha
        simp only [Function.update_self] at hm ⊢
        by_cases hte : t = (c.rank r).phase ∧ d = e
        · obtain ⟨rfl, rfl⟩ := hte
          rw [put_same, Option.some.injEq] at hm
          refine ⟨le_rfl, hm.symm.trans ?_⟩
          congr 1
          funext a b
          unfold before
          split_ifs with hlt
          · rfl
          · rcases lt_or_eq_of_le (not_lt.1 hlt) with h1 | h1
            · exact j1 a b h1
            · rw [← h1]; exact j2 (by rw [h]; simp) b
        · rw [put_ne _ _ hte] at hm; exact ih hm
      · simp only [Function.update_of_ne ha] at hm ⊢; exact ih hm
    | recv a b rest m' l hn h0 h hc' =>
      by_cases ha : r = a
      · subst ha
        simp only [Function.update_self] at hm ⊢
        obtain ⟨k1, k2⟩ := ih hm
        refine ⟨k1, k2.trans ?_⟩
        congr 1
        funext x y
        unfold before
        split_ifs with hlt
        · rw [put_ne _ _ (fun e => by omega)]
        · rfl
      · simp only [Function.update_of_ne ha] at hm ⊢; exact ih hm
    | next a hn h0 h1 hp =>
      by_cases ha : r = a
      · subst ha
        simp only [Function.update_self] at hm ⊢
        obtain ⟨k1, k2⟩ := ih hm
        exact ⟨by omega, k2⟩
      · simp only [Function.update_of_ne ha] at hm ⊢; exact ih hm

/-- The receives of phase `t` are complete on rank `r`. -/
def Completed (c : Config M) (r t : ℕ) : Prop := t < (c.rank r).phase ∨ (t = (c.rank r).phase ∧ (c.rank r).toRecv = [])

theorem completed_inbox {P : Prog M} {c : Config M} (h : Reach P c) {r t : ℕ} (ht : Completed c r t) {s : ℕ} (hs : s ∈ P.nb r) :
    ((c.rank r).inbox t s).isSome := by
  induction h with
  | start =>
    rcases ht with ht | ⟨rfl, ht⟩
    · cases ht
    · rw [show (P.start.rank r).toRecv = P.nb r from rfl] at ht; rw [ht] at hs; cases hs
  | @step c c' hc hst ih =>
    have hrec := (received hc r).2 s hs
    cases hst with
    | send a d rest hn h =>
      by_cases ha : r = a
      · subst ha; simp only [Completed, Function.update_self] at ht ⊢; exact ih ht
      · simp only [Completed, Function.update_of_ne ha] at ht ⊢; exact ih ht
    | recv a b rest m l hn h0 h hc' =>
      by_cases ha : r = a
      · subst ha
        simp only [Completed, Function.update_self] at ht ⊢
        by_cases hb : t = (c.rank r).phase ∧ s = b
        · rw [hb.1, hb.2, put_same]; rfl
        · rw [put_ne _ _ hb]
          rcases ht with ht | ⟨rfl, rfl⟩
          · exact ih (Or.inl ht)
          · exact hrec (by rw [h]; simpa using hb)
      · simp only [Completed, Function.update_of_ne ha] at ht ⊢; exact ih ht
    | next a hn h0 h1 hp =>
      by_cases ha : r = a
      · subst ha
        simp only [Completed, Function.update_self] at ht ⊢
        rcases ht with ht | ⟨rfl, ht⟩
        · rcases lt_or_eq_of_le (Nat.lt_succ_iff.1 ht) with h2 | rfl
          · exact ih (Or.inl h2)
          · exact ih (Or.inr ⟨rfl, h1⟩)
        · rw [ht] at hs; cases hs
      · simp only [Completed, Function.update_of_ne ha] at ht ⊢; exact ih ht

/-- The message a rank finds from a neighbour after completing a phase. -/
theorem inbox_eq {P : Prog M} (hnd : ∀ r, (P.nb r).Nodup) (hself : ∀ r, r ∉ P.nb r) (hsym : ∀ r s, s ∈ P.nb r → r ∈ P.nb s)
    {c : Config M} (h : Reach P c) {r t : ℕ} (ht : Completed c r t) {s : ℕ} (hs : s ∈ P.nb r) :
    (c.rank r).inbox t s = some (P.content s t (before t (c.rank s).inbox) r) := by
  have h1 := completed_inbox h ht hs
  obtain ⟨m, hm⟩ := Option.isSome_iff_exists.1 h1
  rw [hm, (sent_content h s t r (C40_transport hnd hself hsym h hs hm)).2]

end Par
end FVENS
