import Verif.Vortex.Inv

/-!
# The vault covers what is owed
-/

namespace Verif.Vortex

variable {c : Cfg}

/-- What a paying distribution still has to pay. -/
def due (s : St) (id : Nat) : Nat :=
  if s.status id = .paying then unpaidOf (s.book id) (s.keys id) else 0

structure Cov (c : Cfg) (s : St) : Prop where
  waiting : ∀ id, Waiting s id → unpaidOf (s.book id) (s.keys id) ≤ s.total id
  funds : ∃ n, TotalIs (due s) n ∧ n ≤ s.ledger.bal c.vtx c.vault
  paid : ∀ id w, (s.book id w).2 = true → payouts id w s.events = [(s.book id w).1]

theorem Genesis.cov {s : St} (h : Genesis s) : Cov c s where
  waiting := fun id _ => by rw [h.keys, unpaidOf_nil]; exact Nat.zero_le _
  funds := ⟨0, TotalIs.zero.congr (fun id => by simp [due, h.status]), Nat.zero_le _⟩
  paid := fun id w hf => by rw [h.book] at hf; cases hf

/-- Changing what one distribution owes. -/
theorem due_upd {s s' : St} {id n : Nat} (h : TotalIs (due s) n) (he : ∀ i, i ≠ id → due s' i = due s i) :
    TotalIs (due s') (n - due s id + due s' id) := by
  refine (h.upd id (due s' id)).congr ?_
  intro i
  by_cases e : i = id
  · subst e; rw [upd_same]
  · rw [upd_ne _ _ e, he i e]

theorem Cov.move {s : St} (h : Cov c s) {L : Ledger} (hL : s.ledger.bal c.vtx c.vault ≤ L.bal c.vtx c.vault) :
    Cov c { s with ledger := L } := by
  obtain ⟨n, h1, h2⟩ := h.funds
  exact ⟨h.waiting, ⟨n, h1, Nat.le_trans h2 hL⟩, h.paid⟩

/-- The loop pays everything it marks. -/
structure Pays (c : Cfg) (s : St) (id rest : Nat) (acc : Acc) : Prop where
  funds : unpaidOf acc.book (s.keys id) + rest ≤ acc.ledger.bal c.vtx c.vault
  paid : ∀ x, payouts id x acc.events = if (acc.book x).2 = true then [(acc.book x).1] else []

theorem payRun_pays {s : St} (h : Inv c s) (hc : Cov c s) {id rest : Nat}
    (hf : unpaidOf (s.book id) (s.keys id) + rest ≤ s.ledger.bal c.vtx c.vault) :
    Pays c s id rest (payRun c s id) := by
  unfold payRun
  refine payLoop_ind (Pays c s id rest) _ _ _ ?_ ?_ ⟨hf, ?_⟩
  · intro acc w _ _ k
    exact ⟨k.funds, k.paid⟩
  · intro acc w hw hfl k
    have hk := pending_sub hw
    have hu := unpaidOf_upd_mem (book := acc.book) (e := ((acc.book w).1, true)) (h.sorted id).nodup hk
    rw [if_neg hfl] at hu
    simp only [if_true, Nat.add_zero] at hu
    obtain ⟨b1, _, b3⟩ := payOne_cases (c := c) (id := id) (acc := acc) (w := w)
    have hkf := k.funds
    rcases b3 with ⟨L, t1, t2, t3⟩ | ⟨t1, _, _⟩
    · obtain ⟨_, _, _, j4⟩ := safeTransfer_ok t1
      have hv := j4 c.vault
      rw [if_pos rfl] at hv
      refine ⟨?_, ?_⟩
      · rw [b1, t2]
        split at hv <;> omega
      · intro x
        rw [t3, payouts_append, b1, k.paid x]
        by_cases e : x = w
        · subst e
          rw [upd_same, if_neg hfl]
          simp [payouts]
        · rw [upd_ne _ _ e]
          have : payouts id x [.paid id w (acc.book w).1] = [] := by
            simp only [payouts]
            rw [if_neg (fun e' => e e'.2.symm)]
          rw [this, List.append_nil]
    · exfalso
      omega
  · intro x
    by_cases hx : (s.book id x).2 = true
    · simp only [hx, if_true]
      exact hc.paid id x hx
    · simp only [hx]
      rcases h.once id x with e | ⟨e, _⟩
      · simpa using e
      · exact absurd e hx

theorem cov_pay {s s' : St} {id b : Nat} (h : Inv c s) (hc : Cov c s) (hp : pay c s id b = .ok s') :
    Cov c s' := by
  obtain ⟨_, hp⟩ := pay_ok hp
  rcases hp with ⟨_, rfl⟩ | ⟨h1, h2, rfl⟩ | ⟨h1, h2, rfl⟩
  · exact ⟨hc.waiting, hc.funds, hc.paid⟩
  · have hcr := created h (id := id) (by rw [h1]; decide)
    obtain ⟨e1, e2⟩ := payRun_end h h2
    rw [payRun_nil e1]
    have hb : upd s.book id (s.book id) = s.book := by
      funext i; rw [upd_apply]; split
      · rename_i e; rw [e]
      · rfl
    refine ⟨?_, ?_, ?_⟩
    · intro i hi
      simp only [hb]
      by_cases e : i = id
      · subst e
        exfalso
        simp only [Waiting, upd_same] at hi
        rcases hi with hi | hi | hi
        · cases hi
        · cases hi
        · omega
      · simp only [Waiting, upd_ne _ _ e] at hi
        exact hc.waiting i hi
    · obtain ⟨n, n1, n2⟩ := hc.funds
      refine ⟨_, due_upd (id := id) n1 ?_, ?_⟩
      · intro i hi
        simp only [due, hb, upd_ne _ _ hi]
      · simp only [due, hb, upd_same]
        simp only [reduceCtorEq, if_false]
        omega
    · intro i w hw
      simp only [hb] at hw ⊢
      simp only [payouts_append, payouts, List.append_nil]
      exact hc.paid i w hw
  · have hcr := created h (id := id) (by rw [h1]; decide)
    have k := payRun_keeps h id
    obtain ⟨n, n1, n2⟩ := hc.funds
    have hd : due s id = unpaidOf (s.book id) (s.keys id) := by simp only [due, h1, if_true]
    have hle := n1.le id
    have p := payRun_pays (rest := n - due s id) h hc (id := id) (by omega)
    have pf := p.funds
    have pp := p.paid
    have hnw : ∀ i, Waiting s i → i ≠ id := by
      rintro i hi rfl
      rcases hi with hi | hi | hi
      · rw [h1] at hi; cases hi
      · rw [h1] at hi; cases hi
      · omega
    refine ⟨?_, ?_, ?_⟩
    · intro i hi
      simp only [upd_ne _ _ (hnw i hi)]
      exact hc.waiting i hi
    · refine ⟨_, due_upd (id := id) n1 ?_, ?_⟩
      · intro i hi
        simp only [due, upd_ne _ _ hi]
      · generalize due s id = d at *
        simp only [due, h1, upd_same, if_true]
        omega
    · intro i w hw
      simp only at hw ⊢
      by_cases e : i = id
      · subst e
        rw [upd_same] at hw ⊢
        rw [pp w, if_pos hw]
      · rw [upd_ne _ _ e] at hw ⊢
        rw [k.other i w e]
        exact hc.paid i w hw

theorem cov_step {s s' : St} {op : Op} (h : Inv c s) (hc : Cov c s) (hg : Calm c s op)
    (hs : step c s op = .ok s') : Cov c s' := by
  cases op with
  | setAdmin o n =>
    obtain ⟨_, rfl⟩ := setAdmin_ok hs
    exact ⟨hc.waiting, hc.funds, hc.paid⟩
  | create o =>
    obtain ⟨_, _, rfl⟩ := create_ok hs
    obtain ⟨f1, f2, f3⟩ := h.fresh s.next (Nat.le_refl _)
    refine ⟨?_, ?_, hc.paid⟩
    · intro i hi
      by_cases e : i = s.next
      · subst e; simp only [f2, unpaidOf_nil]; exact Nat.zero_le _
      · simp only [Waiting, upd_ne _ _ e] at hi
        refine hc.waiting i ?_
        rcases hi with hi | hi | hi
        · exact .inl hi
        · exact .inr (.inl hi)
        · exact .inr (.inr (by omega))
    · obtain ⟨n, n1, n2⟩ := hc.funds
      refine ⟨n, n1.congr ?_, n2⟩
      intro i
      simp only [due, upd_apply]
      split
      · rename_i e; subst e; simp [f1]
      · rfl
  | disable o id =>
    obtain ⟨_, h1, rfl⟩ := disable_ok hs
    refine ⟨?_, ?_, hc.paid⟩
    · intro i hi
      refine hc.waiting i ?_
      simp only [Waiting, upd_apply] at hi
      split at hi
      · rcases hi with hi | hi | hi
        · cases hi
        · cases hi
        · exact .inr (.inr hi)
      · exact hi
    · obtain ⟨n, n1, n2⟩ := hc.funds
      refine ⟨_, due_upd (id := id) n1 ?_, ?_⟩
      · intro i hi
        simp only [due, upd_ne _ _ hi]
      · have : due { s with status := upd s.status id .disabled } id = 0 := by simp [due]
        rw [this]
        simp only
        omega
  | start o id =>
    obtain ⟨_, h1, L, h2, rfl⟩ := start_ok hs
    have hcr := created h (id := id) (by rw [h1]; decide)
    obtain ⟨_, _, _, _, m5⟩ := Ledger.mint_ok h2
    have hv := m5 c.vault
    rw [if_pos rfl] at hv
    have hw := hc.waiting id (.inr (.inl h1))
    refine ⟨?_, ?_, ?_⟩
    · intro i hi
      have e : i ≠ id := by
        rintro rfl
        simp only [Waiting, upd_same] at hi
        rcases hi with hi | hi | hi
        · cases hi
        · cases hi
        · omega
      simp only [Waiting, upd_ne _ _ e] at hi ⊢
      exact hc.waiting i hi
    · obtain ⟨n, n1, n2⟩ := hc.funds
      have d0 : due s id = 0 := by simp [due, h1]
      refine ⟨_, due_upd (id := id) n1 ?_, ?_⟩
      · intro i hi
        simp only [due, upd_ne _ _ hi]
      · rw [d0]
        simp only [due, upd_same, if_true]
        omega
    · intro i w hf
      simp only [payouts_append, payouts, List.append_nil]
      exact hc.paid i w hf
  | pay id b => exact cov_pay h hc hs
  | setEras o id a b =>
    obtain ⟨_, rfl⟩ := setEras_ok hs
    exact ⟨hc.waiting, hc.funds, hc.paid⟩
  | setPrices o ps id =>
    obtain ⟨_, _, rfl⟩ := setPrices_ok hs
    exact ⟨hc.waiting, hc.funds, hc.paid⟩
  | register o id rs =>
    obtain ⟨_, h1, rfl⟩ := register_ok hs
    have hcr := created h (id := id) (by rw [h1]; decide)
    obtain ⟨r1, r2, r3, r4, r5, _⟩ := addRewards_ok rs (s.keys id, s.book id) (h.sorted id)
    obtain ⟨w1, w2, w3⟩ := h.waiting id (.inl h1)
    have hg : s.total id + (rs.map Prod.snd).sum < U128 := hg
    have hw := hc.waiting id (.inl h1)
    refine ⟨?_, ?_, ?_⟩
    · intro i hi
      simp only
      by_cases e : i = id
      · subst e
        simp only [upd_same]
        rw [satAdd, wrapSum_eq (by omega), if_pos hg]
        simp only at r5
        omega
      · simp only [upd_ne _ _ e]
        exact hc.waiting i hi
    · obtain ⟨n, n1, n2⟩ := hc.funds
      refine ⟨n, n1.congr ?_, n2⟩
      intro i
      simp only [due]
      by_cases e : i = id
      · subst e; simp [h1]
      · simp only [upd_ne _ _ e]
    · intro i w hf
      simp only at hf ⊢
      by_cases e : i = id
      · subst e
        rw [upd_same, r3 w (w3 w)] at hf
        cases hf
      · rw [upd_ne _ _ e] at hf ⊢
        exact hc.paid i w hf
  | trigger o id =>
    obtain ⟨_, h1, L1, L2, h2, h3, rfl⟩ := trigger_ok hs
    have e1 := (sweep_ok h2).2.2 c.vtx (h.priced id).2
    have e2 := (safeTransfer_ok h3).2.2.1 c.vtx (Ne.symm c.native_ne)
    obtain ⟨n, n1, n2⟩ := hc.funds
    refine ⟨?_, ⟨n, n1.congr ?_, ?_⟩, hc.paid⟩
    · intro i hi
      refine hc.waiting i ?_
      by_cases e : i = id
      · subst e; exact .inl h1
      · simpa only [Waiting, upd_ne _ _ e] using hi
    · intro i
      simp only [due, upd_apply]
      split
      · rename_i e; subst e; simp [h1]
      · rfl
    · simp only [e2, e1]; exact n2
  | redeem w id v =>
    obtain ⟨_, _, _, _, L1, L2, h2, h3, rfl⟩ := redeem_ok hs
    have hg : w ≠ c.vault := hg
    have e1 := (payShares_ok h2).2.2 c.vtx (h.priced id).2
    refine hc.move ?_
    rw [← e1]
    exact Ledger.burn_mono h3 c.vtx c.vault (fun _ => Ne.symm hg)
  | nextBlock =>
    cases hs
    exact ⟨hc.waiting, hc.funds, hc.paid⟩
  | move a x y n =>
    simp only [step, bind_ok, pure_ok] at hs
    obtain ⟨L, h1, rfl⟩ := hs
    have hg : a = c.vtx → x ≠ c.vault := hg
    exact hc.move (Ledger.transfer_mono h1 c.vtx c.vault (fun e => Ne.symm (hg e.symm)))
  | mint a y n =>
    simp only [step, bind_ok, pure_ok] at hs
    obtain ⟨L, h1, rfl⟩ := hs
    exact hc.move (Ledger.mint_mono h1 c.vtx c.vault)
  | burn a x n =>
    simp only [step, bind_ok, pure_ok] at hs
    obtain ⟨L, h1, rfl⟩ := hs
    have hg : a = c.vtx → x ≠ c.vault := hg
    exact hc.move (Ledger.burn_mono h1 c.vtx c.vault (fun e => Ne.symm (hg e.symm)))

theorem Reach.cov {g s : St} (h : Reach c (Calm c) g s) : Cov c s := by
  induction h with
  | init hg => exact hg.cov
  | step hr hG hs ih => exact cov_step hr.inv ih hG hs

/-! ### What is minted is what is owed -/

/-- The total of a distribution that has not started is what its accounts are owed. -/
def Exact (s : St) : Prop := ∀ id, Waiting s id → unpaidOf (s.book id) (s.keys id) = s.total id

theorem exact_step {s s' : St} {op : Op} (h : Inv c s) (hx : Exact s) (hg : Fresh c s op)
    (hs : step c s op = .ok s') : Exact s' := by
  cases op with
  | setAdmin o n => obtain ⟨_, rfl⟩ := setAdmin_ok hs; exact hx
  | create o =>
    obtain ⟨_, _, rfl⟩ := create_ok hs
    obtain ⟨f1, f2, f3⟩ := h.fresh s.next (Nat.le_refl _)
    intro i hi
    by_cases e : i = s.next
    · subst e; simp only [f2, f3, unpaidOf_nil]
    · simp only [Waiting, upd_ne _ _ e] at hi
      refine hx i ?_
      rcases hi with hi | hi | hi
      · exact .inl hi
      · exact .inr (.inl hi)
      · exact .inr (.inr (by omega))
  | disable o id =>
    obtain ⟨_, h1, rfl⟩ := disable_ok hs
    intro i hi
    refine hx i ?_
    simp only [Waiting, upd_apply] at hi
    split at hi
    · rcases hi with hi | hi | hi
      · cases hi
      · cases hi
      · exact .inr (.inr hi)
    · exact hi
  | start o id =>
    obtain ⟨_, h1, L, h2, rfl⟩ := start_ok hs
    have hcr := created h (id := id) (by rw [h1]; decide)
    intro i hi
    have e : i ≠ id := by
      rintro rfl
      simp only [Waiting, upd_same] at hi
      rcases hi with hi | hi | hi
      · cases hi
      · cases hi
      · omega
    simp only [Waiting, upd_ne _ _ e] at hi ⊢
    exact hx i hi
  | pay id b =>
    obtain ⟨_, hp⟩ := pay_ok hs
    rcases hp with ⟨_, rfl⟩ | ⟨h1, h2, rfl⟩ | ⟨h1, h2, rfl⟩
    · exact hx
    · have hcr := created h (id := id) (by rw [h1]; decide)
      intro i hi
      have e : i ≠ id := by
        rintro rfl
        simp only [Waiting, upd_same] at hi
        rcases hi with hi | hi | hi
        · cases hi
        · cases hi
        · omega
      simp only [Waiting, upd_ne _ _ e] at hi ⊢
      exact hx i hi
    · have hcr := created h (id := id) (by rw [h1]; decide)
      intro i hi
      have e : i ≠ id := by
        rintro rfl
        simp only [Waiting] at hi
        rw [h1] at hi
        rcases hi with hi | hi | hi
        · cases hi
        · cases hi
        · omega
      simp only [upd_ne _ _ e]
      exact hx i hi
  | setEras o id a b => obtain ⟨_, rfl⟩ := setEras_ok hs; exact hx
  | setPrices o ps id => obtain ⟨_, _, rfl⟩ := setPrices_ok hs; exact hx
  | register o id rs =>
    obtain ⟨_, h1, rfl⟩ := register_ok hs
    obtain ⟨_, _, _, _, _, r6⟩ := addRewards_ok rs (s.keys id, s.book id) (h.sorted id)
    obtain ⟨g1, g2, g3⟩ : s.total id + (rs.map Prod.snd).sum < U128 ∧ (rs.map Prod.fst).Nodup ∧
      ∀ r ∈ rs, r.1 ∉ s.keys id := hg
    have hw := hx id (.inl h1)
    intro i hi
    by_cases e : i = id
    · subst e
      simp only [upd_same]
      rw [satAdd, wrapSum_eq (by omega), if_pos g1]
      have := r6 g2 g3
      simp only at this
      omega
    · simp only [upd_ne _ _ e]
      exact hx i hi
  | trigger o id =>
    obtain ⟨_, h1, L1, L2, h2, h3, rfl⟩ := trigger_ok hs
    intro i hi
    refine hx i ?_
    by_cases e : i = id
    · subst e; exact .inl h1
    · simpa only [Waiting, upd_ne _ _ e] using hi
  | redeem w id v =>
    obtain ⟨_, _, _, _, L1, L2, h2, h3, rfl⟩ := redeem_ok hs
    exact hx
  | nextBlock => cases hs; exact hx
  | move a x y n =>
    simp only [step, bind_ok, pure_ok] at hs
    obtain ⟨L, h1, rfl⟩ := hs; exact hx
  | mint a y n =>
    simp only [step, bind_ok, pure_ok] at hs
    obtain ⟨L, h1, rfl⟩ := hs; exact hx
  | burn a x n =>
    simp only [step, bind_ok, pure_ok] at hs
    obtain ⟨L, h1, rfl⟩ := hs; exact hx

theorem Reach.exact {g s : St} (h : Reach c (Fresh c) g s) : Exact s := by
  induction h with
  | init hg => intro id _; rw [hg.keys, hg.total]; rfl
  | step hr hG hs ih => exact exact_step hr.inv ih hG hs

/-- Nothing is marked before the start, so what is unpaid is what is owed. -/
theorem unpaid_owed {s : St} (h : Inv c s) {id : Nat} (hw : Waiting s id) :
    unpaidOf (s.book id) (s.keys id) = owed s id := by
  unfold unpaidOf owed reward
  congr 1
  apply List.map_congr_left
  intro w _
  rw [if_neg]
  rw [(h.waiting id hw).2.2 w]
  simp

end Verif.Vortex
