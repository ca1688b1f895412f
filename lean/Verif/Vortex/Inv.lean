import Verif.Vortex.Frames

/-!
# The invariant of every history
-/

namespace Verif.Vortex

variable {c : Cfg}

theorem payouts_append {id : Nat} {w : Acct} : ∀ (es es' : List Ev),
    payouts id w (es ++ es') = payouts id w es ++ payouts id w es'
  | [], _ => rfl
  | .paid i x n :: es, es' => by
    simp only [List.cons_append, payouts, payouts_append es es']
    split <;> simp
  | .started _ _ :: es, es' => by simp only [List.cons_append, payouts, payouts_append es es']
  | .done _ :: es, es' => by simp only [List.cons_append, payouts, payouts_append es es']

theorem mints_append {id : Nat} : ∀ (es es' : List Ev), mints id (es ++ es') = mints id es ++ mints id es'
  | [], _ => rfl
  | .started i x :: es, es' => by
    simp only [List.cons_append, mints, mints_append es es']
    split <;> simp
  | .paid _ _ _ :: es, es' => by simp only [List.cons_append, mints, mints_append es es']
  | .done _ :: es, es' => by simp only [List.cons_append, mints, mints_append es es']

/-- Not yet started. -/
def Waiting (s : St) (id : Nat) : Prop := s.status id = .enabled ∨ s.status id = .triggered ∨ s.next ≤ id

structure Inv (c : Cfg) (s : St) : Prop where
  sound : s.ledger.Sound
  fresh : ∀ id, s.next ≤ id → s.status id = .disabled ∧ s.keys id = [] ∧ s.total id = 0
  sorted : ∀ id, Sorted c (s.keys id)
  waiting : ∀ id, Waiting s id → s.pivot id = none ∧ mints id s.events = [] ∧ ∀ w, (s.book id w).2 = false
  absent : ∀ id w, w ∉ s.keys id → s.book id w = (0, false)
  marked : ∀ id p, s.pivot id = some p → ∀ w ∈ s.keys id, c.rank w + 1 ≤ p → (s.book id w).2 = true
  done : ∀ id, s.status id = .done → ∀ w ∈ s.keys id, (s.book id w).2 = true
  priced : ∀ id, (s.priced id).Nodup ∧ c.vtx ∉ s.priced id
  once : ∀ id w, payouts id w s.events = [] ∨
    ((s.book id w).2 = true ∧ payouts id w s.events = [(s.book id w).1])
  minted : ∀ id, (mints id s.events).length ≤ 1

theorem Genesis.inv {s : St} (h : Genesis s) : Inv c s where
  sound := h.sound
  fresh := fun id _ => ⟨h.status id, h.keys id, h.total id⟩
  sorted := fun id => by rw [h.keys]; exact List.Pairwise.nil
  waiting := fun id _ => ⟨h.pivot id, by rw [h.events]; rfl, fun w => by rw [h.book]⟩
  absent := fun id w _ => h.book id w
  marked := fun id p hp => by rw [h.pivot] at hp; cases hp
  done := fun id hd => by rw [h.status] at hd; cases hd
  priced := fun id => by rw [h.priced]; simp
  once := fun id w => .inl (by rw [h.events]; rfl)
  minted := fun id => by rw [h.events]; simp [mints]

theorem pending_sub {s : St} {id : Nat} {w : Acct} (h : w ∈ pending c s id) : w ∈ s.keys id := by
  unfold pending at h
  split at h
  · exact (List.mem_filter.1 h).1
  · exact h

theorem pending_last {s : St} {id : Nat} {w : Acct} (h : w ∈ pending c s id) :
    (s.pivot id).getD 0 < c.rank w + 1 := by
  unfold pending at h
  split at h
  · rename_i p hp
    have := (List.mem_filter.1 h).2
    rw [hp]
    simpa using this
  · rename_i hp
    rw [hp]; simp

theorem pending_sorted {s : St} {id : Nat} (h : Sorted c (s.keys id)) : Sorted c (pending c s id) := by
  unfold pending
  split
  · exact List.Pairwise.filter _ h
  · exact h

/-- Accounts of the order book are pending or at or before the pivot. -/
theorem mem_pending {s : St} {id : Nat} {w : Acct} (h : w ∈ s.keys id) :
    w ∈ pending c s id ∨ ∃ p, s.pivot id = some p ∧ c.rank w + 1 ≤ p := by
  unfold pending
  split
  · rename_i p hp
    by_cases hl : p < c.rank w + 1
    · exact .inl (List.mem_filter.2 ⟨h, by simpa using hl⟩)
    · exact .inr ⟨p, hp, by omega⟩
  · exact .inl h

/-- What the loop keeps. -/
structure Keeps (c : Cfg) (s : St) (id : Nat) (acc : Acc) : Prop where
  sound : acc.ledger.Sound
  amounts : ∀ x, (acc.book x).1 = (s.book id x).1
  others : ∀ x, x ∉ s.keys id → acc.book x = s.book id x
  once : ∀ x, payouts id x acc.events = [] ∨ ((acc.book x).2 = true ∧ payouts id x acc.events = [(acc.book x).1])
  other : ∀ i x, i ≠ id → payouts i x acc.events = payouts i x s.events
  mints : ∀ i, mints i acc.events = mints i s.events

theorem payRun_keeps {s : St} (h : Inv c s) (id : Nat) : Keeps c s id (payRun c s id) := by
  unfold payRun
  refine payLoop_ind (Keeps c s id) _ _ _ ?_ ?_ ⟨h.sound, fun _ => rfl, fun _ _ => rfl, h.once id,
    fun _ _ _ => rfl, fun _ => rfl⟩
  · intro acc w _ _ k
    exact ⟨k.sound, k.amounts, k.others, k.once, k.other, k.mints⟩
  · intro acc w hw hf k
    have hk := pending_sub hw
    obtain ⟨b1, _, b3⟩ := payOne_cases (c := c) (id := id) (acc := acc) (w := w)
    have hnil : payouts id w acc.events = [] := by
      rcases k.once w with e | ⟨e, _⟩
      · exact e
      · exact absurd e hf
    have amounts : ∀ x, ((payOne c id acc w).book x).1 = (s.book id x).1 := by
      intro x
      rw [b1, upd_apply]
      split
      · rename_i e; rw [e]; exact k.amounts w
      · exact k.amounts x
    have others : ∀ x, x ∉ s.keys id → (payOne c id acc w).book x = s.book id x := by
      intro x hx
      have : x ≠ w := fun e => hx (e ▸ hk)
      rw [b1, upd_ne _ _ this]
      exact k.others x hx
    rcases b3 with ⟨L, t1, t2, t3⟩ | ⟨_, t2, t3⟩
    · refine ⟨by rw [t2]; exact safeTransfer_sound t1 k.sound, amounts, others, ?_, ?_, ?_⟩
      · intro x
        rw [t3, payouts_append, b1]
        by_cases hx : x = w
        · subst hx
          right
          rw [upd_same, hnil]
          exact ⟨rfl, by simp [payouts]⟩
        · rw [upd_ne _ _ hx]
          have : payouts id x [.paid id w (acc.book w).1] = [] := by
            simp only [payouts]
            rw [if_neg (fun e => hx e.2.symm)]
          rw [this, List.append_nil]
          exact k.once x
      · intro i x hi
        rw [t3, payouts_append]
        have : payouts i x [.paid id w (acc.book w).1] = [] := by
          simp only [payouts]
          rw [if_neg (fun e => hi e.1.symm)]
        rw [this, List.append_nil]
        exact k.other i x hi
      · intro i
        rw [t3, mints_append]
        simp only [Verif.Vortex.mints, List.append_nil]
        exact k.mints i
    · refine ⟨by rw [t2]; exact k.sound, amounts, others, ?_, ?_, ?_⟩
      · intro x
        rw [t3, b1]
        by_cases hx : x = w
        · subst hx; left; exact hnil
        · rw [upd_ne _ _ hx]; exact k.once x
      · intro i x hi; rw [t3]; exact k.other i x hi
      · intro i; rw [t3]; exact k.mints i

theorem payRun_marks {s : St} (h : Inv c s) (id : Nat) :
    (∀ w ∈ s.keys id, c.rank w + 1 ≤ (payRun c s id).last → ((payRun c s id).book w).2 = true) ∧
    (∀ w, (s.book id w).2 = true → ((payRun c s id).book w).2 = true) ∧
    (s.pivot id).getD 0 ≤ (payRun c s id).last ∧
    (pending c s id ≠ [] → (s.pivot id).getD 0 < (payRun c s id).last) := by
  have hm := payLoop_marks (id := id) (pending c s id) 0 ⟨s.ledger, s.book id, s.events, (s.pivot id).getD 0⟩
    (pending_sorted (h.sorted id)) (fun w hw => pending_last hw)
  obtain ⟨i1, i2, i3, i4⟩ := hm
  refine ⟨?_, i4, i2, i3⟩
  intro w hw hle
  rcases mem_pending (c := c) hw with hp | ⟨p, hp, hl⟩
  · exact i1 w hp hle
  · exact i4 w (h.marked id p hp w hw hl)

/-- When the loop did not move, everything had been visited. -/
theorem payRun_end {s : St} (h : Inv c s) {id : Nat} (hp : s.pivot id = some (payRun c s id).last) :
    pending c s id = [] ∧ ∀ w ∈ s.keys id, (s.book id w).2 = true := by
  have he : pending c s id = [] := by
    by_contra hne
    have := (payRun_marks h id).2.2.2 hne
    rw [hp] at this
    simp at this
  refine ⟨he, ?_⟩
  intro w hw
  rcases mem_pending (c := c) hw with hq | ⟨p, hq, hl⟩
  · rw [he] at hq; cases hq
  · exact h.marked id p hq w hw hl

theorem payRun_nil {s : St} {id : Nat} (h : pending c s id = []) :
    payRun c s id = ⟨s.ledger, s.book id, s.events, (s.pivot id).getD 0⟩ := by
  unfold payRun
  rw [h]
  rfl

/-- Only money moved. -/
theorem Inv.ledger {s : St} (h : Inv c s) {L : Ledger} (hL : L.Sound) : Inv c { s with ledger := L } :=
  ⟨hL, h.fresh, h.sorted, h.waiting, h.absent, h.marked, h.done, h.priced, h.once, h.minted⟩

theorem created {s : St} (h : Inv c s) {id : Nat} (hs : s.status id ≠ .disabled) : id < s.next := by
  by_contra hn
  exact hs (h.fresh id (by omega)).1

theorem inv_pay {s s' : St} {id b : Nat} (h : Inv c s) (hp : pay c s id b = .ok s') : Inv c s' := by
  obtain ⟨_, hp⟩ := pay_ok hp
  rcases hp with ⟨_, rfl⟩ | ⟨h1, h2, rfl⟩ | ⟨h1, h2, rfl⟩
  · exact ⟨h.sound, h.fresh, h.sorted, h.waiting, h.absent, h.marked, h.done, h.priced, h.once, h.minted⟩
  · have hc := created h (id := id) (by rw [h1]; decide)
    obtain ⟨e1, e2⟩ := payRun_end h h2
    rw [payRun_nil e1]
    have hb : upd s.book id (s.book id) = s.book := by
      funext i; rw [upd_apply]; split
      · rename_i e; rw [e]
      · rfl
    have hpv : upd s.pivot id (some ((s.pivot id).getD 0)) = s.pivot := by
      rw [h2]
      funext i; rw [upd_apply]; split
      · rename_i e; rw [e, h2]; rfl
      · rfl
    refine ⟨h.sound, ?_, h.sorted, ?_, ?_, ?_, ?_, h.priced, ?_, ?_⟩
    · intro i hi
      have hi : s.next ≤ i := hi
      simp only
      rw [upd_ne _ _ (by omega : i ≠ id)]
      exact h.fresh i hi
    · intro i hi
      simp only [hb, hpv, mints_append, mints, List.append_nil]
      by_cases e : i = id
      · subst e
        exfalso
        simp only [Waiting, upd_same] at hi
        rcases hi with hi | hi | hi
        · cases hi
        · cases hi
        · omega
      · simp only [Waiting, upd_ne _ _ e] at hi
        exact h.waiting i hi
    · simp only [hb]; exact h.absent
    · simp only [hb, hpv]; exact h.marked
    · intro i hi
      simp only [hb]
      by_cases e : i = id
      · subst e; exact e2
      · simp only [upd_ne _ _ e] at hi
        exact h.done i hi
    · intro i w
      simp only [hb, payouts_append, payouts, List.append_nil]
      exact h.once i w
    · intro i
      simp only [mints_append, mints, List.append_nil]
      exact h.minted i
  · have hc := created h (id := id) (by rw [h1]; decide)
    have k := payRun_keeps h id
    obtain ⟨m1, m2, m3, m4⟩ := payRun_marks h id
    have hnw : ∀ i, Waiting s i → i ≠ id := by
      rintro i hi rfl
      rcases hi with hi | hi | hi
      · rw [h1] at hi; cases hi
      · rw [h1] at hi; cases hi
      · omega
    refine ⟨k.sound, h.fresh, h.sorted, ?_, ?_, ?_, ?_, h.priced, ?_, ?_⟩
    · intro i hi
      have e := hnw i hi
      simp only [upd_ne _ _ e]
      rw [k.mints i]
      exact h.waiting i hi
    · intro i w hw
      simp only at hw ⊢
      by_cases e : i = id
      · subst e; rw [upd_same, k.others w hw]; exact h.absent i w hw
      · rw [upd_ne _ _ e]; exact h.absent i w hw
    · intro i p hp w hw hl
      simp only at hp hw ⊢
      by_cases e : i = id
      · subst e
        rw [upd_same] at hp ⊢
        cases hp
        exact m1 w hw hl
      · rw [upd_ne _ _ e] at hp ⊢
        exact h.marked i p hp w hw hl
    · intro i hi w hw
      simp only at hi hw ⊢
      have e : i ≠ id := by rintro rfl; rw [h1] at hi; cases hi
      rw [upd_ne _ _ e]
      exact h.done i hi w hw
    · intro i w
      simp only
      by_cases e : i = id
      · subst e; rw [upd_same]; exact k.once w
      · rw [upd_ne _ _ e, k.other i w e]; exact h.once i w
    · intro i; rw [k.mints i]; exact h.minted i

theorem inv_step {s s' : St} {op : Op} (h : Inv c s) (hs : step c s op = .ok s') : Inv c s' := by
  cases op with
  | setAdmin o n =>
    obtain ⟨_, rfl⟩ := setAdmin_ok hs
    exact ⟨h.sound, h.fresh, h.sorted, h.waiting, h.absent, h.marked, h.done, h.priced, h.once, h.minted⟩
  | create o =>
    obtain ⟨_, _, rfl⟩ := create_ok hs
    obtain ⟨f1, f2, f3⟩ := h.fresh s.next (Nat.le_refl _)
    obtain ⟨w1, w2, w3⟩ := h.waiting s.next (.inr (.inr (Nat.le_refl _)))
    refine ⟨h.sound, ?_, h.sorted, ?_, h.absent, h.marked, ?_, h.priced, h.once, h.minted⟩
    · intro i hi
      have hi : s.next + 1 ≤ i := hi
      simp only
      rw [upd_ne _ _ (by omega : i ≠ s.next)]
      exact h.fresh i (by omega)
    · intro i hi
      by_cases e : i = s.next
      · subst e; exact ⟨w1, w2, w3⟩
      · simp only [Waiting, upd_ne _ _ e] at hi
        refine h.waiting i ?_
        rcases hi with hi | hi | hi
        · exact .inl hi
        · exact .inr (.inl hi)
        · exact .inr (.inr (by omega))
    · intro i hi
      simp only at hi ⊢
      by_cases e : i = s.next
      · subst e; rw [upd_same] at hi; cases hi
      · rw [upd_ne _ _ e] at hi; exact h.done i hi
  | disable o id =>
    obtain ⟨_, h1, rfl⟩ := disable_ok hs
    have hc := created h h1
    refine ⟨h.sound, ?_, h.sorted, ?_, h.absent, h.marked, ?_, h.priced, h.once, h.minted⟩
    · intro i hi
      have hi : s.next ≤ i := hi
      simp only
      rw [upd_ne _ _ (by omega : i ≠ id)]
      exact h.fresh i hi
    · intro i hi
      refine h.waiting i ?_
      simp only [Waiting, upd_apply] at hi
      split at hi
      · rcases hi with hi | hi | hi
        · cases hi
        · cases hi
        · exact .inr (.inr hi)
      · exact hi
    · intro i hi
      simp only [upd_apply] at hi ⊢
      split at hi
      · cases hi
      · exact h.done i hi
  | start o id =>
    obtain ⟨_, h1, L, h2, rfl⟩ := start_ok hs
    have hc := created h (id := id) (by rw [h1]; decide)
    obtain ⟨w1, w2, w3⟩ := h.waiting id (.inr (.inl h1))
    refine ⟨Ledger.mint_sound h2 h.sound, ?_, h.sorted, ?_, h.absent, h.marked, ?_, h.priced, ?_, ?_⟩
    · intro i hi
      have hi : s.next ≤ i := hi
      simp only
      rw [upd_ne _ _ (by omega : i ≠ id), upd_ne _ _ (by omega : i ≠ id)]
      exact h.fresh i hi
    · intro i hi
      have e : i ≠ id := by
        rintro rfl
        simp only [Waiting, upd_same] at hi
        rcases hi with hi | hi | hi
        · cases hi
        · cases hi
        · omega
      simp only [Waiting, upd_ne _ _ e] at hi
      simp only [mints_append, mints, if_neg (Ne.symm e), List.append_nil]
      exact h.waiting i hi
    · intro i hi
      simp only [upd_apply] at hi ⊢
      split at hi
      · cases hi
      · exact h.done i hi
    · intro i w
      simp only [payouts_append, payouts, List.append_nil]
      exact h.once i w
    · intro i
      simp only [mints_append]
      by_cases e : i = id
      · subst e; rw [w2]; simp [mints]
      · simp only [mints, if_neg (Ne.symm e), List.append_nil]; exact h.minted i
  | pay id b => exact inv_pay h hs
  | setEras o id a b =>
    obtain ⟨_, rfl⟩ := setEras_ok hs
    exact ⟨h.sound, h.fresh, h.sorted, h.waiting, h.absent, h.marked, h.done, h.priced, h.once, h.minted⟩
  | setPrices o ps id =>
    obtain ⟨_, h1, rfl⟩ := setPrices_ok hs
    refine ⟨h.sound, h.fresh, h.sorted, h.waiting, h.absent, h.marked, h.done, ?_, h.once, h.minted⟩
    intro i
    simp only [upd_apply]
    split
    · exact addPrices_ok ps _ h1 (h.priced id).1 (h.priced id).2
    · exact h.priced i
  | register o id rs =>
    obtain ⟨_, h1, rfl⟩ := register_ok hs
    have hc := created h (id := id) (by rw [h1]; decide)
    obtain ⟨r1, r2, r3, r4, _, _⟩ := addRewards_ok rs (s.keys id, s.book id) (h.sorted id)
    obtain ⟨w1, w2, w3⟩ := h.waiting id (.inl h1)
    refine ⟨h.sound, ?_, ?_, ?_, ?_, ?_, ?_, h.priced, ?_, h.minted⟩
    · intro i hi
      have hi : s.next ≤ i := hi
      have e : i ≠ id := by omega
      simp only [upd_ne _ _ e]
      exact h.fresh i hi
    · intro i
      simp only [upd_apply]
      split
      · exact r1
      · exact h.sorted i
    · intro i hi
      obtain ⟨a1, a2, a3⟩ := h.waiting i hi
      refine ⟨a1, a2, ?_⟩
      intro w
      simp only [upd_apply]
      split
      · exact r3 w (w3 w)
      · exact a3 w
    · intro i w hw
      simp only [upd_apply] at hw ⊢
      split
      · rename_i e
        rw [if_pos e] at hw
        rw [r2 w] at hw
        simp only [not_or, not_exists] at hw
        rw [r4 w hw.2]
        exact h.absent id w hw.1
      · rename_i e
        rw [if_neg e] at hw
        exact h.absent i w hw
    · intro i p hp w hw hl
      simp only at hp hw ⊢
      by_cases e : i = id
      · subst e; rw [w1] at hp; cases hp
      · rw [upd_ne _ _ e] at hw ⊢; exact h.marked i p hp w hw hl
    · intro i hi w hw
      simp only at hi hw ⊢
      by_cases e : i = id
      · subst e; rw [h1] at hi; cases hi
      · rw [upd_ne _ _ e] at hw ⊢; exact h.done i hi w hw
    · intro i w
      simp only
      by_cases e : i = id
      · subst e
        left
        rcases h.once i w with hn | ⟨hn, _⟩
        · exact hn
        · rw [w3 w] at hn; cases hn
      · rw [upd_ne _ _ e]; exact h.once i w
  | trigger o id =>
    obtain ⟨_, h1, L1, L2, h2, h3, rfl⟩ := trigger_ok hs
    have hc := created h (id := id) (by rw [h1]; decide)
    refine ⟨safeTransfer_sound h3 ((sweep_ok h2).1 h.sound), ?_, h.sorted, ?_, h.absent, h.marked, ?_,
      h.priced, h.once, h.minted⟩
    · intro i hi
      have hi : s.next ≤ i := hi
      simp only
      rw [upd_ne _ _ (by omega : i ≠ id)]
      exact h.fresh i hi
    · intro i hi
      refine h.waiting i ?_
      by_cases e : i = id
      · subst e; exact .inl h1
      · simpa only [Waiting, upd_ne _ _ e] using hi
    · intro i hi
      simp only [upd_apply] at hi ⊢
      split at hi
      · cases hi
      · exact h.done i hi
  | redeem w id v =>
    obtain ⟨_, _, _, _, L1, L2, h2, h3, rfl⟩ := redeem_ok hs
    exact h.ledger (Ledger.burn_sound h3 ((payShares_ok h2).1 h.sound))
  | nextBlock =>
    cases hs
    exact ⟨h.sound, h.fresh, h.sorted, h.waiting, h.absent, h.marked, h.done, h.priced, h.once, h.minted⟩
  | move a x y n =>
    simp only [step, bind_ok, pure_ok] at hs
    obtain ⟨L, h1, rfl⟩ := hs
    exact h.ledger (Ledger.transfer_sound h1 h.sound)
  | mint a y n =>
    simp only [step, bind_ok, pure_ok] at hs
    obtain ⟨L, h1, rfl⟩ := hs
    exact h.ledger (Ledger.mint_sound h1 h.sound)
  | burn a x n =>
    simp only [step, bind_ok, pure_ok] at hs
    obtain ⟨L, h1, rfl⟩ := hs
    exact h.ledger (Ledger.burn_sound h1 h.sound)

theorem Reach.inv {G : St → Op → Prop} {g s : St} (h : Reach c G g s) : Inv c s := by
  induction h with
  | init hg => exact hg.inv
  | step _ _ hs ih => exact inv_step ih hs

end Verif.Vortex
