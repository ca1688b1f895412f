import Verif.Vortex.Cover

/-!
# The vortex properties
-/

namespace Verif.Vortex

variable {c : Cfg}

/-! ## C44 -/

/-- C44. In every history each account is paid at most once per distribution, and then exactly its
registered reward. -/
theorem C44_once {g s : St} (h : Reach c Any g s) (id : Nat) (who : Acct) :
    (payouts id who s.events).length ≤ 1 ∧
    ∀ x ∈ payouts id who s.events, Registered s id who ∧ x = reward s id who := by
  have hi := h.inv
  rcases hi.once id who with e | ⟨e1, e2⟩
  · rw [e]; simp
  · rw [e2]
    refine ⟨by simp, ?_⟩
    intro x hx
    refine ⟨?_, List.mem_singleton.1 hx⟩
    by_contra hn
    have := hi.absent id who hn
    rw [this] at e1
    cases e1

/-- The loop moves what it reports. -/
structure Moves (c : Cfg) (id : Nat) (L : Ledger) (es : List Ev) (acc : Acc) : Prop where
  iss : acc.ledger.iss = L.iss
  other : ∀ a, a ≠ c.vtx → acc.ledger.bal a = L.bal a
  new : ∃ new, acc.events = es ++ new ∧ (∀ i w, i ≠ id → payouts i w new = []) ∧
    ∀ y, acc.ledger.bal c.vtx y + (if y = c.vault then paidSum new else 0) = L.bal c.vtx y + paidTo y new

theorem paidSum_append : ∀ (es es' : List Ev), paidSum (es ++ es') = paidSum es + paidSum es'
  | [], _ => by simp [paidSum]
  | .paid i x n :: es, es' => by
    simp only [List.cons_append, paidSum, paidSum_append es es']; omega
  | .started _ _ :: es, es' => by simp only [List.cons_append, paidSum, paidSum_append es es']
  | .done _ :: es, es' => by simp only [List.cons_append, paidSum, paidSum_append es es']

theorem paidTo_append {y : Acct} : ∀ (es es' : List Ev), paidTo y (es ++ es') = paidTo y es + paidTo y es'
  | [], _ => by simp [paidTo]
  | .paid i x n :: es, es' => by
    simp only [List.cons_append, paidTo, paidTo_append es es']; omega
  | .started _ _ :: es, es' => by simp only [List.cons_append, paidTo, paidTo_append es es']
  | .done _ :: es, es' => by simp only [List.cons_append, paidTo, paidTo_append es es']

theorem payRun_moves (s : St) (id : Nat) : Moves c id s.ledger s.events (payRun c s id) := by
  unfold payRun
  refine payLoop_ind (Moves c id s.ledger s.events) _ _ _ ?_ ?_ ⟨rfl, fun _ _ => rfl, [], by simp,
    fun _ _ _ => rfl, fun y => by simp [paidSum, paidTo]⟩
  · intro acc w _ _ k
    exact ⟨k.iss, k.other, k.new⟩
  · intro acc w _ _ k
    obtain ⟨_, _, b3⟩ := payOne_cases (c := c) (id := id) (acc := acc) (w := w)
    rcases b3 with ⟨L, t1, t2, t3⟩ | ⟨_, t2, t3⟩
    · obtain ⟨_, j2, j3, j4⟩ := safeTransfer_ok t1
      obtain ⟨new, n1, n2, n3⟩ := k.new
      refine ⟨by rw [t2, j2]; exact k.iss, fun a ha => by rw [t2, j3 a ha]; exact k.other a ha,
        new ++ [.paid id w (acc.book w).1], by rw [t3, n1, List.append_assoc], ?_, ?_⟩
      · intro i x hi
        rw [payouts_append, n2 i x hi]
        simp only [payouts]
        rw [if_neg (fun e => hi e.1.symm)]
        rfl
      · intro y
        have a1 := n3 y
        have a2 := j4 y
        rw [t2, paidSum_append, paidTo_append]
        simp only [paidSum, paidTo, Nat.add_zero]
        have e : (if w = y then (acc.book w).1 else 0) = if y = w then (acc.book w).1 else 0 := by
          by_cases hy : y = w
          · subst hy; simp
          · rw [if_neg hy, if_neg (Ne.symm hy)]
        rw [e]
        by_cases hv : y = c.vault
        · rw [if_pos hv] at a1 a2 ⊢
          omega
        · rw [if_neg hv] at a1 a2 ⊢
          omega
    · obtain ⟨new, n1, n2, n3⟩ := k.new
      exact ⟨by rw [t2]; exact k.iss, fun a ha => by rw [t2]; exact k.other a ha, new, by rw [t3, n1], n2,
        by rw [t2]; exact n3⟩

/-- C44. A payout call moves exactly the amounts it reports, from the vault to the accounts it names, and
touches nothing else; it reports nothing about other distributions. -/
theorem C44_moves {s s' : St} {id b : Nat} (h : step c s (.pay id b) = .ok s') :
    ∃ new, s'.events = s.events ++ new ∧ (∀ i w, i ≠ id → payouts i w new = []) ∧
      s'.ledger.iss = s.ledger.iss ∧ (∀ a, a ≠ c.vtx → s'.ledger.bal a = s.ledger.bal a) ∧
      ∀ y, s'.ledger.bal c.vtx y + (if y = c.vault then paidSum new else 0) =
        s.ledger.bal c.vtx y + paidTo y new := by
  obtain ⟨_, hp⟩ := pay_ok h
  have m := payRun_moves (c := c) s id
  obtain ⟨new, n1, n2, n3⟩ := m.new
  rcases hp with ⟨_, rfl⟩ | ⟨_, _, rfl⟩ | ⟨_, _, rfl⟩
  · exact ⟨[], by simp, fun _ _ _ => rfl, rfl, fun _ _ => rfl, fun y => by simp [paidSum, paidTo]⟩
  · refine ⟨new ++ [.done id], by simp only [n1, List.append_assoc], ?_, m.iss, m.other, ?_⟩
    · intro i w hi
      rw [payouts_append, n2 i w hi]
      rfl
    · intro y
      rw [paidSum_append, paidTo_append]
      simp only [paidSum, paidTo, Nat.add_zero]
      exact n3 y
  · exact ⟨new, n1, n2, m.iss, m.other, n3⟩

/-- C44, as far as it holds. As long as the registered rewards of a distribution add up to a `u128` and
nothing outside the pallet spends the vault's vortex, a distribution that is done has paid every registered
account its reward, and no payment ever fails: whatever is marked as paid has been paid.
Missing: sums beyond `u128`, see `C44_paid_refuted`. -/
theorem C44_paid_partial {g s : St} (h : Reach c (Calm c) g s) (id : Nat) (who : Acct) :
    (s.status id = .done → Registered s id who → payouts id who s.events = [reward s id who]) ∧
    ((s.book id who).2 = true → payouts id who s.events = [reward s id who]) := by
  have hc := h.cov
  refine ⟨fun hd hr => hc.paid id who (h.inv.done id hd who hr), fun hm => hc.paid id who hm⟩

/-- C44. Under the same conditions the vault holds all the vortex that paying distributions still owe. -/
theorem C44_covered_partial {g s : St} (h : Reach c (Calm c) g s) :
    ∃ n, TotalIs (fun id => if s.status id = .paying then
        ((s.keys id).map (fun w => if payouts id w s.events = [] then reward s id w else 0)).sum else 0) n ∧
      n ≤ s.ledger.bal c.vtx c.vault := by
  have hc := h.cov
  have hi := h.inv
  obtain ⟨n, h1, h2⟩ := hc.funds
  refine ⟨n, h1.congr ?_, h2⟩
  intro id
  unfold due
  split
  · unfold unpaidOf
    congr 1
    apply List.map_congr_left
    intro w _
    by_cases hm : (s.book id w).2 = true
    · rw [if_pos hm, hc.paid id w hm]
      simp
    · rw [if_neg hm]
      rcases hi.once id w with e | ⟨e, _⟩
      · rw [if_pos e]; rfl
      · exact absurd e hm
  · rfl

/-! ## C45 -/

/-- C45, as far as it holds. If every account is registered at most once and the rewards add up to a
`u128`, starting a distribution mints exactly the sum of the rewards of the registered accounts.
Missing: accounts registered twice, see `C45_minted_refuted`. -/
theorem C45_minted_partial {g s s' : St} {o : Origin} {id : Nat} (h : Reach c (Fresh c) g s)
    (hs : step c s (.start o id) = .ok s') :
    s'.ledger.iss c.vtx = s.ledger.iss c.vtx + owed s id ∧
    s'.ledger.bal c.vtx c.vault = s.ledger.bal c.vtx c.vault + owed s id ∧
    s'.events = s.events ++ [.started id (owed s id)] := by
  obtain ⟨_, h1, L, h2, rfl⟩ := start_ok hs
  have hw : Waiting s id := .inr (.inl h1)
  have e : owed s id = s.total id := by rw [← unpaid_owed h.inv hw]; exact h.exact id hw
  obtain ⟨_, m2, _, _, m5⟩ := Ledger.mint_ok h2
  have := m5 c.vault
  rw [if_pos rfl] at this
  exact ⟨by rw [e]; exact m2, by rw [e]; exact this, by rw [e]⟩

/-- C45. Without the condition on repeated registrations it mints at least what is owed. -/
theorem C45_enough {g s s' : St} {o : Origin} {id : Nat} (h : Reach c (Calm c) g s)
    (hs : step c s (.start o id) = .ok s') :
    ∃ x, owed s id ≤ x ∧ s'.ledger.iss c.vtx = s.ledger.iss c.vtx + x ∧
      s'.ledger.bal c.vtx c.vault = s.ledger.bal c.vtx c.vault + x := by
  obtain ⟨_, h1, L, h2, rfl⟩ := start_ok hs
  have hw : Waiting s id := .inr (.inl h1)
  have e : owed s id ≤ s.total id := by rw [← unpaid_owed h.inv hw]; exact h.cov.waiting id hw
  obtain ⟨_, m2, _, _, m5⟩ := Ledger.mint_ok h2
  have := m5 c.vault
  rw [if_pos rfl] at this
  exact ⟨s.total id, e, m2, this⟩

/-! ## C46 -/

theorem satMul_le (x y : Nat) : satMul x y ≤ x * y := by
  unfold satMul
  split
  · exact Nat.le_refl _
  · omega

/-- What a redemption pays of each asset. -/
theorem redeem_share {s s' : St} {who : Acct} {id v : Nat} (h : Inv c s)
    (hs : step c s (.redeem who id v) = .ok s') (a : AssetId) (ha : a ≠ c.vtx) :
    ∃ r, (r = if a ∈ s.priced id then satMul v (s.ledger.bal a c.vault) / s.ledger.iss c.vtx else 0) ∧
      ∀ y, s'.ledger.bal a y + (if y = c.vault then r else 0) = s.ledger.bal a y + (if y = who then r else 0) := by
  obtain ⟨_, _, _, _, L1, L2, h2, h3, rfl⟩ := redeem_ok hs
  obtain ⟨_, _, _, b4, _⟩ := Ledger.burn_ok h3
  refine ⟨_, rfl, ?_⟩
  intro y
  simp only [b4 a ha]
  by_cases hm : a ∈ s.priced id
  · simp only [if_pos hm]
    exact payShares_listed (h.priced id).1 h2 a hm y
  · simp only [if_neg hm, (payShares_ok h2).2.2 a hm]
    split <;> split <;> rfl

/-- C46. A redemption takes exactly the named amount of vortex from the caller and destroys it, and pays
the caller at most their share of what the vault holds of each asset; nobody else's balance changes. -/
theorem C46_prorata {g s s' : St} {who : Acct} {id v : Nat} (h : Reach c Any g s) (hw : who ≠ c.vault)
    (hs : step c s (.redeem who id v) = .ok s') :
    s'.ledger.bal c.vtx who + v = s.ledger.bal c.vtx who ∧
    s'.ledger.iss c.vtx + v = s.ledger.iss c.vtx ∧
    (∀ y, y ≠ who → s'.ledger.bal c.vtx y = s.ledger.bal c.vtx y) ∧
    ∀ a, a ≠ c.vtx → ∃ r,
      s'.ledger.bal a who = s.ledger.bal a who + r ∧
      s'.ledger.bal a c.vault + r = s.ledger.bal a c.vault ∧
      r * s.ledger.iss c.vtx ≤ v * s.ledger.bal a c.vault ∧
      (∀ y, y ≠ who → y ≠ c.vault → s'.ledger.bal a y = s.ledger.bal a y) := by
  have hi := h.inv
  have hshare := fun a ha => redeem_share hi hs a ha
  obtain ⟨hpos, hv0, hv, _, L1, L2, h2, h3, rfl⟩ := redeem_ok hs
  obtain ⟨s1, s2, s3⟩ := payShares_ok h2
  have e1 := s3 c.vtx (hi.priced id).2
  obtain ⟨b1, b2, _, _, b5⟩ := Ledger.burn_ok h3
  have hle := (hi.sound c.vtx).1.le who
  have b5' : ∀ y, L2.bal c.vtx y + (if y = who then v else 0) = s.ledger.bal c.vtx y := by
    intro y; rw [b5 y, e1]
  have := b5' who
  rw [if_pos rfl] at this
  refine ⟨this, ?_, ?_, ?_⟩
  · simp only [b2, s2]; omega
  · intro y hy
    have := b5' y
    rw [if_neg hy] at this
    exact this
  · intro a ha
    obtain ⟨r, hr, hb⟩ := hshare a ha
    refine ⟨r, ?_, ?_, ?_, ?_⟩
    · have := hb who
      rw [if_neg hw, if_pos rfl] at this
      exact this
    · have := hb c.vault
      rw [if_pos rfl, if_neg (Ne.symm hw)] at this
      exact this
    · rw [hr]
      split
      · exact Nat.le_trans (Nat.div_mul_le_self _ _) (satMul_le _ _)
      · simp
    · intro y hy1 hy2
      have := hb y
      rw [if_neg hy2, if_neg hy1] at this
      exact this

/-- C46. After a redemption every remaining unit of vortex is backed by at least as much of every asset. -/
theorem C46_backing {g s s' : St} {who : Acct} {id v : Nat} (h : Reach c Any g s) (hw : who ≠ c.vault)
    (hs : step c s (.redeem who id v) = .ok s') (a : AssetId) (ha : a ≠ c.vtx) :
    s.ledger.bal a c.vault * s'.ledger.iss c.vtx ≤ s'.ledger.bal a c.vault * s.ledger.iss c.vtx := by
  obtain ⟨_, h2, _, h4⟩ := C46_prorata h hw hs
  obtain ⟨r, _, r2, r3, _⟩ := h4 a ha
  have e1 : s.ledger.bal a c.vault * s.ledger.iss c.vtx =
      s.ledger.bal a c.vault * s'.ledger.iss c.vtx + s.ledger.bal a c.vault * v := by
    rw [← Nat.mul_add, h2]
  have e2 : s.ledger.bal a c.vault * s.ledger.iss c.vtx =
      s'.ledger.bal a c.vault * s.ledger.iss c.vtx + r * s.ledger.iss c.vtx := by
    rw [← Nat.add_mul, r2]
  have e3 : v * s.ledger.bal a c.vault = s.ledger.bal a c.vault * v := Nat.mul_comm _ _
  omega

/-- Redemptions by anybody but the vault. -/
@[reducible] def Redeeming (c : Cfg) : St → Op → Prop
  | _, .redeem who _ _ => who ≠ c.vault
  | _, _ => False

theorem run_any {G : St → Op → Prop} {s s' : St} (h : Run c G s s') : Run c Any s s' := by
  induction h with
  | nil => exact .nil _
  | step _ _ hs ih => exact .step ih trivial hs

/-- C46. The same over any sequence of redemptions. -/
theorem C46_run {g s s' : St} (h : Reach c Any g s) (hr : Run c (Redeeming c) s s') (a : AssetId)
    (ha : a ≠ c.vtx) :
    s.ledger.bal a c.vault * s'.ledger.iss c.vtx ≤ s'.ledger.bal a c.vault * s.ledger.iss c.vtx := by
  induction hr with
  | nil => exact Nat.le_refl _
  | @step s1 s2 op hr hG hs ih =>
    cases op with
    | redeem who id v =>
      have h1 : Reach c Any g s1 := h.run (run_any hr)
      have hb := C46_backing h1 hG hs a ha
      have hpos : 0 < s1.ledger.iss c.vtx := (redeem_ok hs).1
      refine Nat.le_of_mul_le_mul_right ?_ hpos
      calc s.ledger.bal a c.vault * s2.ledger.iss c.vtx * s1.ledger.iss c.vtx
          = s.ledger.bal a c.vault * s1.ledger.iss c.vtx * s2.ledger.iss c.vtx := by ring
        _ ≤ s1.ledger.bal a c.vault * s.ledger.iss c.vtx * s2.ledger.iss c.vtx :=
            Nat.mul_le_mul_right _ ih
        _ = s1.ledger.bal a c.vault * s2.ledger.iss c.vtx * s.ledger.iss c.vtx := by ring
        _ ≤ s2.ledger.bal a c.vault * s1.ledger.iss c.vtx * s.ledger.iss c.vtx :=
            Nat.mul_le_mul_right _ hb
        _ = s2.ledger.bal a c.vault * s.ledger.iss c.vtx * s1.ledger.iss c.vtx := by ring
    | _ => exact False.elim hG

/-! ## C90 -/

/-- C90, as far as it holds. A redemption pays the rounded-down share of every asset that has a price, as
long as vortex amount times vault balance fits `u128`.
Missing: larger products, see `C90_share_refuted`. -/
theorem C90_share_partial {g s s' : St} {who : Acct} {id v : Nat} (h : Reach c Any g s)
    (hw : who ≠ c.vault) (hs : step c s (.redeem who id v) = .ok s') (a : AssetId) (ha : a ∈ s.priced id)
    (hfit : v * s.ledger.bal a c.vault < U128) :
    s'.ledger.bal a who = s.ledger.bal a who + v * s.ledger.bal a c.vault / s.ledger.iss c.vtx := by
  have hi := h.inv
  have hne : a ≠ c.vtx := fun e => (hi.priced id).2 (e ▸ ha)
  obtain ⟨r, hr, hb⟩ := redeem_share hi hs a hne
  rw [if_pos ha, satMul, if_pos hfit] at hr
  have := hb who
  rw [if_neg hw, if_pos rfl, hr] at this
  exact this

/-! ## C47 -/

/-- C47. One call moves a created distribution to the next stage, disables it, or leaves it where it is. -/
theorem C47_step {g s s' : St} {op : Op} (h : Reach c Any g s) (hs : step c s op = .ok s') (id : Nat)
    (hid : id < s.next) :
    s'.status id = s.status id ∨ s'.status id = .disabled ∨ stage (s'.status id) = stage (s.status id) + 1 := by
  cases op with
  | setAdmin o n => obtain ⟨_, rfl⟩ := setAdmin_ok hs; exact .inl rfl
  | create o =>
    obtain ⟨_, _, rfl⟩ := create_ok hs
    exact .inl (upd_ne _ _ (by omega))
  | disable o i =>
    obtain ⟨_, _, rfl⟩ := disable_ok hs
    by_cases e : id = i
    · subst e; exact .inr (.inl (upd_same _ _ _))
    · exact .inl (upd_ne _ _ e)
  | start o i =>
    obtain ⟨_, h1, L, _, rfl⟩ := start_ok hs
    by_cases e : id = i
    · subst e; simp only [upd_same, h1]; exact .inr (.inr rfl)
    · exact .inl (upd_ne _ _ e)
  | pay i b =>
    obtain ⟨_, hp⟩ := pay_ok hs
    rcases hp with ⟨_, rfl⟩ | ⟨h1, _, rfl⟩ | ⟨_, _, rfl⟩
    · exact .inl rfl
    · by_cases e : id = i
      · subst e; simp only [upd_same, h1]; exact .inr (.inr rfl)
      · exact .inl (upd_ne _ _ e)
    · exact .inl rfl
  | setEras o i a b => obtain ⟨_, rfl⟩ := setEras_ok hs; exact .inl rfl
  | setPrices o ps i => obtain ⟨_, _, rfl⟩ := setPrices_ok hs; exact .inl rfl
  | register o i rs => obtain ⟨_, _, rfl⟩ := register_ok hs; exact .inl rfl
  | trigger o i =>
    obtain ⟨_, h1, L1, L2, _, _, rfl⟩ := trigger_ok hs
    by_cases e : id = i
    · subst e; simp only [upd_same, h1]; exact .inr (.inr rfl)
    · exact .inl (upd_ne _ _ e)
  | redeem w i v => obtain ⟨_, _, _, _, L1, L2, _, _, rfl⟩ := redeem_ok hs; exact .inl rfl
  | nextBlock => cases hs; exact .inl rfl
  | move a x y n =>
    simp only [step, bind_ok, pure_ok] at hs
    obtain ⟨L, _, rfl⟩ := hs; exact .inl rfl
  | mint a y n =>
    simp only [step, bind_ok, pure_ok] at hs
    obtain ⟨L, _, rfl⟩ := hs; exact .inl rfl
  | burn a x n =>
    simp only [step, bind_ok, pure_ok] at hs
    obtain ⟨L, _, rfl⟩ := hs; exact .inl rfl

theorem next_step {s s' : St} {op : Op} (hs : step c s op = .ok s') : s.next ≤ s'.next := by
  cases op with
  | setAdmin o n => obtain ⟨_, rfl⟩ := setAdmin_ok hs; exact Nat.le_refl _
  | create o => obtain ⟨_, _, rfl⟩ := create_ok hs; exact Nat.le_succ _
  | disable o i => obtain ⟨_, _, rfl⟩ := disable_ok hs; exact Nat.le_refl _
  | start o i => obtain ⟨_, h1, L, _, rfl⟩ := start_ok hs; exact Nat.le_refl _
  | pay i b =>
    obtain ⟨_, hp⟩ := pay_ok hs
    rcases hp with ⟨_, rfl⟩ | ⟨_, _, rfl⟩ | ⟨_, _, rfl⟩ <;> exact Nat.le_refl _
  | setEras o i a b => obtain ⟨_, rfl⟩ := setEras_ok hs; exact Nat.le_refl _
  | setPrices o ps i => obtain ⟨_, _, rfl⟩ := setPrices_ok hs; exact Nat.le_refl _
  | register o i rs => obtain ⟨_, _, rfl⟩ := register_ok hs; exact Nat.le_refl _
  | trigger o i => obtain ⟨_, _, L1, L2, _, _, rfl⟩ := trigger_ok hs; exact Nat.le_refl _
  | redeem w i v => obtain ⟨_, _, _, _, L1, L2, _, _, rfl⟩ := redeem_ok hs; exact Nat.le_refl _
  | nextBlock => cases hs; exact Nat.le_refl _
  | move a x y n =>
    simp only [step, bind_ok, pure_ok] at hs
    obtain ⟨L, _, rfl⟩ := hs; exact Nat.le_refl _
  | mint a y n =>
    simp only [step, bind_ok, pure_ok] at hs
    obtain ⟨L, _, rfl⟩ := hs; exact Nat.le_refl _
  | burn a x n =>
    simp only [step, bind_ok, pure_ok] at hs
    obtain ⟨L, _, rfl⟩ := hs; exact Nat.le_refl _

theorem next_run {G : St → Op → Prop} {s s' : St} (h : Run c G s s') : s.next ≤ s'.next := by
  induction h with
  | nil => exact Nat.le_refl _
  | step _ _ hs ih => exact Nat.le_trans ih (next_step hs)

/-- C47. Over any history a created distribution never goes back to an earlier stage. -/
theorem C47_forward {g s s' : St} (h : Reach c Any g s) (hr : Run c Any s s') (id : Nat) (hid : id < s.next) :
    stage (s.status id) ≤ stage (s'.status id) := by
  induction hr with
  | nil => exact Nat.le_refl _
  | @step s1 s2 op hr hG hs ih =>
    have h1 : Reach c Any g s1 := h.run hr
    have hn : id < s1.next := Nat.lt_of_lt_of_le hid (next_run hr)
    refine Nat.le_trans ih ?_
    rcases C47_step h1 hs id hn with e | e | e
    · rw [e]
    · rw [e]
      cases s1.status id <;> decide
    · omega

theorem frozen_step {s s' : St} {op : Op} (h : Inv c s) (hs : step c s op = .ok s') (id : Nat)
    (hst : s.status id ≠ .enabled) :
    s'.keys id = s.keys id ∧ ∀ w, (s'.book id w).1 = (s.book id w).1 := by
  cases op with
  | setAdmin o n => obtain ⟨_, rfl⟩ := setAdmin_ok hs; exact ⟨rfl, fun _ => rfl⟩
  | create o => obtain ⟨_, _, rfl⟩ := create_ok hs; exact ⟨rfl, fun _ => rfl⟩
  | disable o i => obtain ⟨_, _, rfl⟩ := disable_ok hs; exact ⟨rfl, fun _ => rfl⟩
  | start o i => obtain ⟨_, h1, L, _, rfl⟩ := start_ok hs; exact ⟨rfl, fun _ => rfl⟩
  | pay i b =>
    obtain ⟨_, hp⟩ := pay_ok hs
    have k := payRun_keeps h i
    rcases hp with ⟨_, rfl⟩ | ⟨_, _, rfl⟩ | ⟨_, _, rfl⟩
    · exact ⟨rfl, fun _ => rfl⟩
    · refine ⟨rfl, fun w => ?_⟩
      simp only [upd_apply]
      split
      · rename_i e; subst e; exact k.amounts w
      · rfl
    · refine ⟨rfl, fun w => ?_⟩
      simp only [upd_apply]
      split
      · rename_i e; subst e; exact k.amounts w
      · rfl
  | setEras o i a b => obtain ⟨_, rfl⟩ := setEras_ok hs; exact ⟨rfl, fun _ => rfl⟩
  | setPrices o ps i => obtain ⟨_, _, rfl⟩ := setPrices_ok hs; exact ⟨rfl, fun _ => rfl⟩
  | register o i rs =>
    obtain ⟨_, h1, rfl⟩ := register_ok hs
    have e : id ≠ i := fun e => hst (e ▸ h1)
    exact ⟨upd_ne _ _ e, fun w => by simp only [upd_ne _ _ e]⟩
  | trigger o i => obtain ⟨_, _, L1, L2, _, _, rfl⟩ := trigger_ok hs; exact ⟨rfl, fun _ => rfl⟩
  | redeem w i v => obtain ⟨_, _, _, _, L1, L2, _, _, rfl⟩ := redeem_ok hs; exact ⟨rfl, fun _ => rfl⟩
  | nextBlock => cases hs; exact ⟨rfl, fun _ => rfl⟩
  | move a x y n =>
    simp only [step, bind_ok, pure_ok] at hs
    obtain ⟨L, _, rfl⟩ := hs; exact ⟨rfl, fun _ => rfl⟩
  | mint a y n =>
    simp only [step, bind_ok, pure_ok] at hs
    obtain ⟨L, _, rfl⟩ := hs; exact ⟨rfl, fun _ => rfl⟩
  | burn a x n =>
    simp only [step, bind_ok, pure_ok] at hs
    obtain ⟨L, _, rfl⟩ := hs; exact ⟨rfl, fun _ => rfl⟩

/-- C47. Once a distribution has left the enabled stage, who is registered and for how much never
changes. -/
theorem C47_frozen {g s s' : St} (h : Reach c Any g s) (hr : Run c Any s s') (id : Nat) (hid : id < s.next)
    (hst : s.status id ≠ .enabled) (who : Acct) :
    (Registered s' id who ↔ Registered s id who) ∧ reward s' id who = reward s id who := by
  induction hr with
  | nil => exact ⟨Iff.rfl, rfl⟩
  | @step s1 s2 op hr hG hs ih =>
    have h1 : Reach c Any g s1 := h.run hr
    have hf := C47_forward h hr id hid
    have hst1 : s1.status id ≠ .enabled := by
      intro e
      rw [e] at hf
      cases hq : s.status id <;> rw [hq] at hf hst <;> simp [stage] at hf hst
    obtain ⟨k1, k2⟩ := frozen_step h1.inv hs id hst1
    unfold Registered reward at *
    rw [k1, k2 who]
    exact ih

/-- C47. In every history vortex is minted at most once per distribution, and never before it has been
triggered. -/
theorem C47_mint_once {g s : St} (h : Reach c Any g s) (id : Nat) :
    (mints id s.events).length ≤ 1 ∧
    (s.status id = .enabled ∨ s.status id = .triggered → mints id s.events = []) := by
  refine ⟨h.inv.minted id, fun hw => (h.inv.waiting id ?_).2.1⟩
  rcases hw with e | e
  · exact .inl e
  · exact .inr (.inl e)

/-- C47. The pallet creates vortex only by starting a distribution, and reports the amount. -/
theorem C47_supply {s s' : St} {op : Op} (hs : step c s op = .ok s')
    (hop : ∀ a y n, op ≠ .mint a y n) (hgrow : s.ledger.iss c.vtx < s'.ledger.iss c.vtx) :
    ∃ o id x, op = .start o id ∧ s'.ledger.iss c.vtx = s.ledger.iss c.vtx + x ∧
      s'.events = s.events ++ [.started id x] := by
  cases op with
  | setAdmin o n => obtain ⟨_, rfl⟩ := setAdmin_ok hs; exact absurd hgrow (Nat.lt_irrefl _)
  | create o => obtain ⟨_, _, rfl⟩ := create_ok hs; exact absurd hgrow (Nat.lt_irrefl _)
  | disable o i => obtain ⟨_, _, rfl⟩ := disable_ok hs; exact absurd hgrow (Nat.lt_irrefl _)
  | start o i =>
    obtain ⟨_, h1, L, h2, rfl⟩ := start_ok hs
    exact ⟨o, i, s.total i, rfl, (Ledger.mint_ok h2).2.1, rfl⟩
  | pay i b =>
    obtain ⟨new, _, _, e, _⟩ := C44_moves hs
    rw [e] at hgrow
    exact absurd hgrow (Nat.lt_irrefl _)
  | setEras o i a b => obtain ⟨_, rfl⟩ := setEras_ok hs; exact absurd hgrow (Nat.lt_irrefl _)
  | setPrices o ps i => obtain ⟨_, _, rfl⟩ := setPrices_ok hs; exact absurd hgrow (Nat.lt_irrefl _)
  | register o i rs => obtain ⟨_, _, rfl⟩ := register_ok hs; exact absurd hgrow (Nat.lt_irrefl _)
  | trigger o i =>
    obtain ⟨_, _, L1, L2, h1, h2, rfl⟩ := trigger_ok hs
    have e1 := (sweep_ok h1).2.1
    have e2 := (safeTransfer_ok h2).2.1
    simp only [e2, e1] at hgrow
    exact absurd hgrow (Nat.lt_irrefl _)
  | redeem w i v =>
    obtain ⟨_, _, _, _, L1, L2, h1, h2, rfl⟩ := redeem_ok hs
    have e1 := (payShares_ok h1).2.1
    have e2 := (Ledger.burn_ok h2).2.1
    simp only [e2, e1] at hgrow
    omega
  | nextBlock => cases hs; exact absurd hgrow (Nat.lt_irrefl _)
  | move a x y n =>
    simp only [step, bind_ok, pure_ok] at hs
    obtain ⟨L, h1, rfl⟩ := hs
    simp only [(Ledger.transfer_ok h1).2.1] at hgrow
    exact absurd hgrow (Nat.lt_irrefl _)
  | mint a y n => exact absurd rfl (hop a y n)
  | burn a x n =>
    simp only [step, bind_ok, pure_ok] at hs
    obtain ⟨L, h1, rfl⟩ := hs
    obtain ⟨_, e2, e3, _⟩ := Ledger.burn_ok h1
    by_cases ea : c.vtx = a
    · subst ea; simp only [e2] at hgrow; omega
    · simp only [e3 _ ea] at hgrow
      exact absurd hgrow (Nat.lt_irrefl _)

/-! ## C91 -/

/-- Payout calls for `id` that the pool accepts in every block. -/
def isPay (id : Nat) : Op → Bool
  | .pay i b => i == id && b == 0
  | _ => false

/-- Not a call that disables `id`. -/
def keepsAlive (id : Nat) : Op → Prop
  | .disable _ i => i ≠ id
  | _ => True

/-- The loop visits at least the first pending account. -/
theorem payLoop_head {id : Nat} {w : Acct} {ws : List Acct} {n : Nat} {acc : Acc} (hs : Sorted c (w :: ws)) :
    c.rank w + 1 ≤ (payLoop c id (w :: ws) n acc).last := by
  obtain ⟨h1, h2⟩ := List.pairwise_cons.1 hs
  have key : ∀ (n' : Nat) (acc' : Acc), acc'.last = c.rank w + 1 →
      c.rank w + 1 ≤ (payLoop c id ws n' acc').last := by
    intro n' acc' e
    have := (payLoop_marks (id := id) ws n' acc' h2 (fun x hx => by have := h1 x hx; omega)).2.1
    omega
  unfold payLoop
  split
  · exact key _ _ rfl
  · have e := (payOne_cases (c := c) (id := id) (acc := acc) (w := w)).2.1
    split
    · omega
    · exact key _ _ e

/-- What is left to visit. -/
def left (c : Cfg) (s : St) (id : Nat) : Nat :=
  (pending c s id).length + (if s.pivot id = none then 1 else 0)

theorem pay_progress {s s' : St} {id b : Nat} (h : Inv c s) (hp : s.status id = .paying)
    (hs : pay c s id b = .ok s') : s'.status id = .done ∨ (s'.status id = .paying ∧ left c s' id < left c s id) := by
  obtain ⟨_, hc⟩ := pay_ok hs
  rcases hc with ⟨h1, _⟩ | ⟨_, _, rfl⟩ | ⟨_, h2, rfl⟩
  · exact absurd hp h1
  · left; exact upd_same _ _ _
  · right
    refine ⟨hp, ?_⟩
    have hso := pending_sorted (c := c) (id := id) (h.sorted id)
    unfold left
    have e0 : pending c { s with
        ledger := (payRun c s id).ledger
        book := upd s.book id (payRun c s id).book
        events := (payRun c s id).events
        pivot := upd s.pivot id (some (payRun c s id).last)
        unsignedAt := s.now + c.interval } id =
        (s.keys id).filter (fun w => (payRun c s id).last < c.rank w + 1) := by
      simp only [pending, upd_same]
    rw [e0]
    simp only [upd_same, reduceCtorEq, if_false, Nat.add_zero]
    have e1 : (s.keys id).filter (fun w => (payRun c s id).last < c.rank w + 1) =
        (pending c s id).filter (fun w => (payRun c s id).last < c.rank w + 1) := by
      unfold pending
      split
      · rename_i p hpv
        have hle := (payRun_marks h id).2.2.1
        rw [hpv] at hle
        simp only [Option.getD_some] at hle
        rw [List.filter_filter]
        apply List.filter_congr
        intro w _
        by_cases hl : (payRun c s id).last < c.rank w + 1
        · have : p < c.rank w + 1 := by omega
          simp [hl, this]
        · simp [hl]
      · rfl
    rw [e1]
    cases hpd : pending c s id with
    | nil =>
      simp only [List.filter_nil, List.length_nil]
      have hrun := payRun_nil hpd
      have : s.pivot id = none := by
        cases hpv : s.pivot id with
        | none => rfl
        | some p =>
          exfalso
          apply h2
          rw [hrun, hpv]
          rfl
      rw [if_pos this]
      omega
    | cons w ws =>
      rw [hpd] at hso
      have hh : c.rank w + 1 ≤ (payRun c s id).last := by
        unfold payRun
        rw [hpd]
        exact payLoop_head hso
      rw [List.filter_cons_of_neg (by simpa using hh)]
      have := List.length_filter_le (fun w => decide ((payRun c s id).last < c.rank w + 1)) ws
      simp only [List.length_cons]
      split <;> omega

theorem keep_paying {s s' : St} {op : Op} {id : Nat} (hk : keepsAlive id op)
    (hnp : isPay id op = false) (hi : Inv c s) (hs : step c s op = .ok s') :
    (s.status id = .done → s'.status id = .done) ∧
    (s.status id = .paying → s'.status id = .done ∨ (s'.status id = .paying ∧ left c s' id ≤ left c s id)) := by
  have same : s'.status id = s.status id → s'.keys id = s.keys id → s'.pivot id = s.pivot id →
      (s.status id = .done → s'.status id = .done) ∧
      (s.status id = .paying → s'.status id = .done ∨ (s'.status id = .paying ∧ left c s' id ≤ left c s id)) := by
    intro e1 e2 e3
    refine ⟨fun h => e1.trans h, fun h => .inr ⟨e1.trans h, ?_⟩⟩
    unfold left pending
    rw [e2, e3]
  cases op with
  | setAdmin o n => obtain ⟨_, rfl⟩ := setAdmin_ok hs; exact same rfl rfl rfl
  | create o =>
    obtain ⟨_, _, rfl⟩ := create_ok hs
    by_cases e : id = s.next
    · have := (hi.fresh id (by omega)).1
      rw [this]
      exact ⟨fun h => (by cases h), fun h => (by cases h)⟩
    · exact same (upd_ne _ _ e) rfl rfl
  | disable o i =>
    obtain ⟨_, _, rfl⟩ := disable_ok hs
    have hk : i ≠ id := hk
    exact same (upd_ne _ _ (Ne.symm hk)) rfl rfl
  | start o i =>
    obtain ⟨_, h1, L, _, rfl⟩ := start_ok hs
    by_cases e : id = i
    · subst e; rw [h1]; exact ⟨fun h => (by cases h), fun h => (by cases h)⟩
    · exact same (upd_ne _ _ e) rfl rfl
  | pay i b =>
    by_cases e : i = id
    · subst e
      refine ⟨fun h => ?_, fun h => ?_⟩
      · obtain ⟨_, hp⟩ := pay_ok hs
        rcases hp with ⟨_, rfl⟩ | ⟨h1, _, _⟩ | ⟨h1, _, _⟩
        · exact h
        · rw [h] at h1; cases h1
        · rw [h] at h1; cases h1
      · rcases pay_progress hi h hs with e | ⟨e1, e2⟩
        · exact .inl e
        · exact .inr ⟨e1, Nat.le_of_lt e2⟩
    · obtain ⟨_, hp⟩ := pay_ok hs
      rcases hp with ⟨_, rfl⟩ | ⟨_, _, rfl⟩ | ⟨_, _, rfl⟩
      · exact same rfl rfl rfl
      · exact same (upd_ne _ _ (Ne.symm e)) rfl (upd_ne _ _ (Ne.symm e))
      · exact same rfl rfl (upd_ne _ _ (Ne.symm e))
  | setEras o i a b => obtain ⟨_, rfl⟩ := setEras_ok hs; exact same rfl rfl rfl
  | setPrices o ps i => obtain ⟨_, _, rfl⟩ := setPrices_ok hs; exact same rfl rfl rfl
  | register o i rs =>
    obtain ⟨_, h1, rfl⟩ := register_ok hs
    by_cases e : id = i
    · subst e
      simp only [h1]
      exact ⟨fun h => (by cases h), fun h => (by cases h)⟩
    · exact same rfl (upd_ne _ _ e) rfl
  | trigger o i =>
    obtain ⟨_, h1, L1, L2, _, _, rfl⟩ := trigger_ok hs
    by_cases e : id = i
    · subst e; rw [h1]; exact ⟨fun h => (by cases h), fun h => (by cases h)⟩
    · exact same (upd_ne _ _ e) rfl rfl
  | redeem w i v => obtain ⟨_, _, _, _, L1, L2, _, _, rfl⟩ := redeem_ok hs; exact same rfl rfl rfl
  | nextBlock => cases hs; exact same rfl rfl rfl
  | move a x y n =>
    simp only [step, bind_ok, pure_ok] at hs
    obtain ⟨L, _, rfl⟩ := hs; exact same rfl rfl rfl
  | mint a y n =>
    simp only [step, bind_ok, pure_ok] at hs
    obtain ⟨L, _, rfl⟩ := hs; exact same rfl rfl rfl
  | burn a x n =>
    simp only [step, bind_ok, pure_ok] at hs
    obtain ⟨L, _, rfl⟩ := hs; exact same rfl rfl rfl

theorem finishes {id : Nat} : ∀ (ops : List Op) (s : St), Inv c s → (∀ op ∈ ops, keepsAlive id op) →
    (s.status id = .done ∨ (s.status id = .paying ∧ left c s id < (ops.filter (isPay id)).length)) →
    (exec c s ops).status id = .done
  | [], s, _, _, h => by
    rcases h with h | ⟨_, h⟩
    · exact h
    · simp at h
  | op :: ops, s, hi, hk, h => by
    have hk' : ∀ op ∈ ops, keepsAlive id op := fun o ho => hk o (List.mem_cons_of_mem _ ho)
    have hop := hk op List.mem_cons_self
    unfold exec after
    by_cases hp : isPay id op = true
    · -- a payout call
      cases op with
      | pay i b =>
        simp only [isPay, Bool.and_eq_true, beq_iff_eq] at hp
        obtain ⟨rfl, rfl⟩ := hp
        have hok : ∃ s', step c s (.pay i 0) = .ok s' := by
          have hb : ensure (0 ≤ s.now) "Future" = .ok () := ensure_pos (Nat.zero_le _)
          simp only [step, pay, hb, bind, Except.bind]
          split
          · split
            · exact ⟨_, rfl⟩
            · exact ⟨_, rfl⟩
          · exact ⟨_, rfl⟩
        obtain ⟨s', hs⟩ := hok
        rw [hs]
        refine finishes ops s' (inv_step hi hs) hk' ?_
        rcases h with h | ⟨h1, h2⟩
        · left
          obtain ⟨_, hc⟩ := pay_ok hs
          rcases hc with ⟨_, rfl⟩ | ⟨h1, _, _⟩ | ⟨h1, _, _⟩
          · exact h
          · rw [h] at h1; cases h1
          · rw [h] at h1; cases h1
        · rcases pay_progress hi h1 hs with e | ⟨e1, e2⟩
          · exact .inl e
          · right
            refine ⟨e1, ?_⟩
            rw [List.filter_cons_of_pos (by simp [isPay])] at h2
            simp only [List.length_cons] at h2
            omega
      | _ => simp [isPay] at hp
    · have hp' : isPay id op = false := by simpa using hp
      rw [List.filter_cons_of_neg (by simp [hp'])] at h
      cases hs : step c s op with
      | error e => exact finishes ops s hi hk' h
      | ok s' =>
        obtain ⟨k1, k2⟩ := keep_paying hop hp' hi hs
        refine finishes ops s' (inv_step hi hs) hk' ?_
        rcases h with h | ⟨h1, h2⟩
        · exact .inl (k1 h)
        · rcases k2 h1 with e | ⟨e1, e2⟩
          · exact .inl e
          · exact .inr ⟨e1, by omega⟩

/-- C91. A started distribution finishes: whatever else happens, short of disabling it, two more payout
calls than it has accounts complete it. -/
theorem C91_finishes {g s : St} (h : Reach c Any g s) {id : Nat} (hp : s.status id = .paying) (ops : List Op)
    (hk : ∀ op ∈ ops, keepsAlive id op)
    (hn : (s.keys id).length + 2 ≤ (ops.filter (isPay id)).length) :
    (exec c s ops).status id = .done := by
  refine finishes ops s h.inv hk (.inr ⟨hp, ?_⟩)
  have : (pending c s id).length ≤ (s.keys id).length := by
    unfold pending
    split
    · exact List.length_filter_le _ _
    · exact Nat.le_refl _
  unfold left
  split <;> omega

/-! ## C92 -/

/-- C92. Only root or the admin can create, disable, price, fill, trigger or start a distribution, and
only root can change the admin. -/
theorem C92_admin {s s' : St} {op : Op} (hs : step c s op = .ok s')
    (hch : s'.admin ≠ s.admin ∨ s'.next ≠ s.next ∨ s'.keys ≠ s.keys ∨ s'.priced ≠ s.priced ∨ s'.price ≠ s.price ∨
      s'.eras ≠ s.eras ∨ s'.total ≠ s.total ∨
      ∃ id, s'.status id ≠ s.status id ∧ ¬ (s.status id = .paying ∧ s'.status id = .done)) :
    ∃ o, (o = none ∨ ∃ w, o = some w ∧ s.admin = some w) ∧ (s'.admin ≠ s.admin → o = none) ∧
      ((∃ n, op = .setAdmin o n) ∨ op = .create o ∨ (∃ id, op = .disable o id) ∨ (∃ id, op = .start o id) ∨
       (∃ id a b, op = .setEras o id a b) ∨ (∃ ps id, op = .setPrices o ps id) ∨
       (∃ id rs, op = .register o id rs) ∨ (∃ id, op = .trigger o id)) := by
  have no : s'.admin = s.admin → s'.next = s.next → s'.keys = s.keys → s'.priced = s.priced →
      s'.price = s.price → s'.eras = s.eras → s'.total = s.total →
      (∀ id, s'.status id = s.status id ∨ (s.status id = .paying ∧ s'.status id = .done)) → False := by
    intro e1 e2 e3 e4 e5 e6 e7 e8
    rcases hch with h | h | h | h | h | h | h | ⟨id, h1, h2⟩
    · exact h e1
    · exact h e2
    · exact h e3
    · exact h e4
    · exact h e5
    · exact h e6
    · exact h e7
    · rcases e8 id with e | e
      · exact h1 e
      · exact h2 e
  cases op with
  | setAdmin o n =>
    obtain ⟨h1, _⟩ := setAdmin_ok hs
    exact ⟨o, .inl h1, fun _ => h1, .inl ⟨n, rfl⟩⟩
  | create o =>
    obtain ⟨h1, _, rfl⟩ := create_ok hs
    exact ⟨o, rootOrAdmin_ok h1, fun h => absurd rfl h, .inr (.inl rfl)⟩
  | disable o i =>
    obtain ⟨h1, _, rfl⟩ := disable_ok hs
    exact ⟨o, rootOrAdmin_ok h1, fun h => absurd rfl h, .inr (.inr (.inl ⟨i, rfl⟩))⟩
  | start o i =>
    obtain ⟨h1, _, L, _, rfl⟩ := start_ok hs
    exact ⟨o, rootOrAdmin_ok h1, fun h => absurd rfl h, .inr (.inr (.inr (.inl ⟨i, rfl⟩)))⟩
  | pay i b =>
    exfalso
    obtain ⟨_, hp⟩ := pay_ok hs
    rcases hp with ⟨_, rfl⟩ | ⟨h1, _, rfl⟩ | ⟨_, _, rfl⟩
    · exact no rfl rfl rfl rfl rfl rfl rfl (fun _ => .inl rfl)
    · refine no rfl rfl rfl rfl rfl rfl rfl (fun id => ?_)
      by_cases e : id = i
      · subst e; exact .inr ⟨h1, upd_same _ _ _⟩
      · exact .inl (upd_ne _ _ e)
    · exact no rfl rfl rfl rfl rfl rfl rfl (fun _ => .inl rfl)
  | setEras o i a b =>
    obtain ⟨h1, rfl⟩ := setEras_ok hs
    exact ⟨o, rootOrAdmin_ok h1, fun h => absurd rfl h, .inr (.inr (.inr (.inr (.inl ⟨i, a, b, rfl⟩))))⟩
  | setPrices o ps i =>
    obtain ⟨h1, _, rfl⟩ := setPrices_ok hs
    exact ⟨o, rootOrAdmin_ok h1, fun h => absurd rfl h, .inr (.inr (.inr (.inr (.inr (.inl ⟨ps, i, rfl⟩)))))⟩
  | register o i rs =>
    obtain ⟨h1, _, rfl⟩ := register_ok hs
    exact ⟨o, rootOrAdmin_ok h1, fun h => absurd rfl h,
      .inr (.inr (.inr (.inr (.inr (.inr (.inl ⟨i, rs, rfl⟩))))))⟩
  | trigger o i =>
    obtain ⟨h1, _, L1, L2, _, _, rfl⟩ := trigger_ok hs
    exact ⟨o, rootOrAdmin_ok h1, fun h => absurd rfl h,
      .inr (.inr (.inr (.inr (.inr (.inr (.inr ⟨i, rfl⟩))))))⟩
  | redeem w i v =>
    exfalso
    obtain ⟨_, _, _, _, L1, L2, _, _, rfl⟩ := redeem_ok hs
    exact no rfl rfl rfl rfl rfl rfl rfl (fun _ => .inl rfl)
  | nextBlock => exfalso; cases hs; exact no rfl rfl rfl rfl rfl rfl rfl (fun _ => .inl rfl)
  | move a x y n =>
    exfalso
    simp only [step, bind_ok, pure_ok] at hs
    obtain ⟨L, _, rfl⟩ := hs; exact no rfl rfl rfl rfl rfl rfl rfl (fun _ => .inl rfl)
  | mint a y n =>
    exfalso
    simp only [step, bind_ok, pure_ok] at hs
    obtain ⟨L, _, rfl⟩ := hs; exact no rfl rfl rfl rfl rfl rfl rfl (fun _ => .inl rfl)
  | burn a x n =>
    exfalso
    simp only [step, bind_ok, pure_ok] at hs
    obtain ⟨L, _, rfl⟩ := hs; exact no rfl rfl rfl rfl rfl rfl rfl (fun _ => .inl rfl)

/-! ## C93 -/

/-- How many payments a log reports. -/
def payCount : List Ev → Nat
  | [] => 0
  | .paid _ _ _ :: es => payCount es + 1
  | _ :: es => payCount es

theorem payCount_append : ∀ (es es' : List Ev), payCount (es ++ es') = payCount es + payCount es'
  | [], _ => by simp [payCount]
  | .paid _ _ _ :: es, es' => by simp only [List.cons_append, payCount, payCount_append es es']; omega
  | .started _ _ :: es, es' => by simp only [List.cons_append, payCount, payCount_append es es']
  | .done _ :: es, es' => by simp only [List.cons_append, payCount, payCount_append es es']

theorem payLoop_count {id : Nat} : ∀ (ws : List Acct) (n : Nat) (acc : Acc), n ≤ c.batch →
    payCount (payLoop c id ws n acc).events + n ≤ payCount acc.events + c.batch + 1
  | [], n, acc, h => by simp only [payLoop]; omega
  | w :: ws, n, acc, h => by
    have hone : payCount (payOne c id acc w).events ≤ payCount acc.events + 1 := by
      obtain ⟨_, _, b3⟩ := payOne_cases (c := c) (id := id) (acc := acc) (w := w)
      rcases b3 with ⟨L, _, _, t3⟩ | ⟨_, _, t3⟩
      · rw [t3, payCount_append]; simp [payCount]
      · rw [t3]; omega
    unfold payLoop
    split
    · have := payLoop_count (id := id) ws n { acc with last := c.rank w + 1 } h
      exact this
    · split
      · omega
      · rename_i hb
        have := payLoop_count (id := id) ws (n + 1) (payOne c id acc w) (by omega)
        omega

/-- C93, as far as it holds. A payout call makes at most one payment more than the batch size.
Missing: the batch size itself is not respected, see `C93_batch_refuted`. -/
theorem C93_batch_partial {s s' : St} {id b : Nat} (h : step c s (.pay id b) = .ok s') :
    payCount s'.events ≤ payCount s.events + c.batch + 1 := by
  obtain ⟨_, hp⟩ := pay_ok h
  have := payLoop_count (c := c) (id := id) (pending c s id) 0
    ⟨s.ledger, s.book id, s.events, (s.pivot id).getD 0⟩ (Nat.zero_le _)
  simp only [Nat.add_zero] at this
  rcases hp with ⟨_, rfl⟩ | ⟨_, _, rfl⟩ | ⟨_, _, rfl⟩
  · simp only; omega
  · simp only [payCount_append, payCount, Nat.add_zero]; exact this
  · exact this

end Verif.Vortex
