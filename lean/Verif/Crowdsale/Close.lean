import Verif.Crowdsale.Pay

/-!
# Redeeming, closing, and the invariant over histories
-/

namespace Verif.Crowdsale

/-- Redeeming never saturates: a call mints at most `mintLimit` tokens. -/
def Limits (c : Cfg) : Prop := c.mintLimit * unit < U32

theorem redeem_burns {c : Cfg} (hl : Limits c) {q : Nat} (hq : q ≤ c.mintLimit) :
    min (q * unit) (U32 - 1) = q * unit := by
  have : q * unit ≤ c.mintLimit * unit := Nat.mul_le_mul_right _ hq
  unfold Limits at hl
  exact min_eq_left (by omega)

theorem redeem_inv {c : Cfg} (hl : Limits c) {s s' : St} {who : Acct} {id q : Nat} (H : Inv c s)
    (h : redeem c s who id q = .ok s') (hw : ∀ j, who ≠ c.vault j) : Inv c s' := by
  obtain ⟨i, k, L, h1, h2, h3, h4, h5, h6, h7, h8, rfl⟩ := redeem_ok h
  obtain ⟨k', m, K⟩ := H.sales id i h2
  have e1 : k' = k := by have := K.coll; rw [h5] at this; cases this; rfl
  subst e1
  rw [redeem_burns hl h6] at h4
  obtain ⟨t1, t2, t3, t4, t5⟩ := Ledger.burn_ok h4
  have hle : s.ledger.bal i.voucher who ≤ s.ledger.iss i.voucher := (H.sound i.voucher).1.le who
  have hv : ∀ j a, L.bal a (c.vault j) = s.ledger.bal a (c.vault j) := by
    intro j a
    by_cases e : a = i.voucher
    · subst e
      have := t5 (c.vault j)
      rw [if_neg (fun e => hw j e.symm)] at this
      omega
    · rw [t4 a e]
  have hfr : ∀ a, s.issuer a = none → L.iss a = 0 := by
    intro a ha
    by_cases e : a = i.voucher
    · subst e; rw [K.issuer] at ha; cases ha
    · rw [t3 a e]; exact H.fresh a ha
  refine Inv.target (id := id) H (Ledger.burn_sound h4 H.sound) hfr rfl K.lt H.nodupQ ?_ ?_
  · intro j hj
    have hvj : c.vault id ≠ c.vault j := fun e => hj (c.vault_inj _ _ e).symm
    exact {
      sale := rfl
      keys := rfl
      contrib := rfl
      bal := fun a => le_of_eq (hv j a).symm
      iss := fun a ha => by
        have e : a ≠ i.voucher := by
          rintro rfl; rw [K.issuer] at ha; exact hvj (Option.some.inj ha)
        exact t3 a e
      issuer := fun _ _ h => h
      colls := fun x k0 hk ho _ => by
        have e : x ≠ i.coll := by
          rintro rfl; rw [h5] at hk; cases hk; exact hvj (K.owner.symm.trans ho)
        exact ⟨k0.issued, by simp only [upd_ne _ _ e]; exact hk, le_refl _⟩
      events := ⟨[_], rfl, by intro e he; simp at he; subst he; exact Ne.symm hj⟩
      queue := Iff.rfl
      next := le_refl _ }
  · intro i' hi'
    have hi : s.sale id = some i' := hi'
    rw [h2] at hi; cases hi
    refine ⟨{ k' with
      issued := k'.issued + q
      next := k'.next + q }, m, { K with
      coll := upd_same _ _ _
      owner := K.owner
      pub := K.pub
      max := K.max
      issued := Nat.add_le_add_right K.issued q
      supply := ?_
      phase := ?_ }⟩
    · show L.iss i.voucher + unit * redeemed id (Ev.redeemed id who q :: s.events) = unit * m
      have : redeemed id (Ev.redeemed id who q :: s.events) = q + redeemed id s.events := by
        simp [redeemed]
      rw [t2, this, Nat.mul_add, ← K.supply]
      have : unit * q = q * unit := Nat.mul_comm _ _
      omega
    · have hp := K.phase
      unfold Phase at hp ⊢
      have eo : owed { s with
          ledger := L
          colls := upd s.colls i.coll (some { k' with
            issued := k'.issued + q
            next := k'.next + q })
          events := .redeemed id who q :: s.events } id i m = owed s id i m := rfl
      rw [eo]
      dsimp only
      rw [hv id, hv id]
      exact hp

theorem act_inv {c : Cfg} {s s' : St} {who : Acct} {call : Call} (H : Inv c s) (h : run c s who call = .ok s')
    (q : ∀ j, Quiet c j s s') : Inv c s' := by
  obtain ⟨L, is, cs, rfl, h1, h2⟩ := run_frame h
  exact Inv.all H (h1 H.sound) (h2 H.fresh) rfl H.nodupQ q

theorem proxy_inv {c : Cfg} {s s' : St} {who : Acct} {id : Nat} {call : Call} (H : Inv c s)
    (h : proxy c s who id call = .ok s') : Inv c s' := by
  obtain ⟨i, s1, h1, h2, h3, h4, rfl⟩ := proxy_ok h
  have H1 := act_inv H h4 (fun j => run_allowed h4 h3)
  obtain ⟨k, m, K⟩ := H.sales id i h1
  obtain ⟨n, K1⟩ := K.quiet (run_allowed h4 h3)
  refine Inv.target (id := id) H1 H1.sound H1.fresh rfl K1.lt H1.nodupQ ?_ ?_
  · intro j hj
    exact Quiet.of rfl rfl rfl (fun _ => le_refl _) (fun _ _ => rfl) rfl rfl [_] rfl
      (by intro e he; simp at he; subst he; exact Ne.symm hj) Iff.rfl rfl
  · intro i' hi'
    have hi : s1.sale id = some i' := hi'
    rw [(run_allowed (c := c) (j := id) h4 h3).sale, h1] at hi
    cases hi
    exact ⟨_, m, K1.events (fun _ => rfl) (fun _ => rfl) rfl⟩

theorem force_inv {c : Cfg} {s s' : St} {id : Nat} (H : Inv c s) (h : force c s id = .ok s') : Inv c s' := by
  obtain ⟨i, b, h1, h2, rfl⟩ := force_ok h
  obtain ⟨k, m, K⟩ := H.sales id i h1
  have hp := K.phase
  simp only [Phase, h2] at hp
  obtain ⟨p1, p2, p3⟩ := hp
  rw [if_neg p1]
  have cl : ¬ (i.paying ∨ i.isOver) := by
    rintro (⟨_, _, o⟩ | ⟨_, o⟩) <;> rw [h2] at o <;> cases o
  refine Inv.target (id := id) H H.sound H.fresh rfl K.lt ?_ ?_ ?_
  · exact List.nodup_append.mpr ⟨H.nodupQ, by simp, by
      intro a ha b hb; simp at hb; subst hb; rintro rfl; exact p3 ha⟩
  · intro j hj
    exact Quiet.of (upd_ne _ _ hj) rfl rfl (fun _ => le_refl _) (fun _ _ => rfl) rfl rfl [_] rfl
      (by intro e he; simp at he; subst he; exact Ne.symm hj) (by simp [hj]) rfl
  · intro i' hi'
    simp only [upd_same, Option.some.injEq] at hi'
    subst hi'
    refine ⟨k, m, { K with
      outKeys := fun w hw => ?_
      phase := ⟨p1, p2, by simp⟩ }⟩
    obtain ⟨o1, o2 | ⟨o2, _⟩⟩ := K.outKeys w hw
    · exact ⟨o1, .inl o2⟩
    · exact absurd o2 cl

/-! ## Closing -/

/-- A sale that is not open is left alone. -/
theorem closeOne_skip {c : Cfg} {s : St} {id : Nat} (h : ∀ i, s.sale id = some i → ¬ i.isOpen) :
    closeOne c s id = s := by
  unfold closeOne
  cases hs : s.sale id with
  | none => rfl
  | some i =>
    have := h i hs
    cases hst : i.status with
    | enabled b => exact absurd ⟨b, hst⟩ this
    | _ => simp only [hst]

/-- The outcomes of closing an open sale. -/
inductive Closed (c : Cfg) (s : St) (id : Nat) (i : Sale) : Status → List Nat → List Ev → Prop
  | empty : i.raised = 0 → Closed c s id i (.ended s.now) s.queue (.closed id :: s.events)
  | queued : i.raised ≠ 0 → s.queue.length < c.maxQueue →
      Closed c s id i (.distributing s.now 0) (s.queue ++ [id]) (.closed id :: s.events)
  | full : i.raised ≠ 0 → c.maxQueue ≤ s.queue.length → Closed c s id i (.failed s.now) s.queue s.events

theorem closeOne_open {c : Cfg} {s : St} {id : Nat} {i : Sale} {k : Coll} {m : Nat} (hi : s.sale id = some i)
    (K : SaleInv c s id i k m) (ho : i.isOpen) :
    ∃ L L2 st q es, s.ledger.transfer i.pay (c.vault id) i.admin i.raised = .ok L ∧
      L.transfer i.voucher (c.vault id) i.admin (refund i m) = .ok L2 ∧ Closed c s id i st q es ∧
      closeOne c s id = { s with
        ledger := L2
        queue := q
        sale := upd s.sale id (some { i with status := st })
        events := es } := by
  obtain ⟨b, hst⟩ := ho
  have hp := K.phase
  simp only [Phase, hst] at hp
  obtain ⟨p1, p2, p3⟩ := hp
  have ht : ∃ L, s.ledger.transfer i.pay (c.vault id) i.admin i.raised = .ok L := by
    unfold Ledger.transfer
    rw [if_pos p1]
    exact ⟨_, rfl⟩
  obtain ⟨L, hL⟩ := ht
  have ht2 : ∃ L2, L.transfer i.voucher (c.vault id) i.admin (refund i m) = .ok L2 := by
    have hb : L.bal i.voucher (c.vault id) = s.ledger.bal i.voucher (c.vault id) :=
      transfer_self_keeps hL (Ne.symm K.pay)
    unfold Ledger.transfer
    rw [if_pos (by rw [hb]; exact le_trans (refund_le i m) p2)]
    exact ⟨_, rfl⟩
  obtain ⟨L2, hL2⟩ := ht2
  have hc : (s.colls i.coll).bind Coll.max = some m := by rw [K.coll]; exact K.max
  have hv := K.vault
  by_cases h0 : i.raised = 0
  · refine ⟨L, L2, _, _, _, hL, hL2, .empty h0, ?_⟩
    unfold closeOne
    simp only [hi, hst, hv, hL, hc, hL2]
    rw [if_pos h0]
  · by_cases hq : s.queue.length < c.maxQueue
    · refine ⟨L, L2, _, _, _, hL, hL2, .queued h0 hq, ?_⟩
      unfold closeOne
      simp only [hi, hst, hv, hL, hc, hL2]
      rw [if_neg h0, if_pos hq]
    · refine ⟨L, L2, _, _, _, hL, hL2, .full h0 (by omega), ?_⟩
      unfold closeOne
      simp only [hi, hst, hv, hL, hc, hL2]
      rw [if_neg h0, if_neg hq]

theorem closeOne_quiet {c : Cfg} {s : St} {id j : Nat} (H : Inv c s) (hj : j ≠ id) : Quiet c j s (closeOne c s id) := by
  by_cases h : ∃ i, s.sale id = some i ∧ i.isOpen
  · obtain ⟨i, hi, ho⟩ := h
    obtain ⟨k, m, K⟩ := H.sales id i hi
    obtain ⟨L, L2, st, q, es, h1, h2, h3, h4⟩ := closeOne_open hi K ho
    rw [h4]
    have hvj : c.vault id ≠ c.vault j := fun e => hj (c.vault_inj _ _ e).symm
    have hb := fun a => le_trans (transfer_keeps h1 hvj a) (transfer_keeps h2 hvj a)
    have hi : ∀ a, L2.iss a = s.ledger.iss a := fun a => by rw [transfer_iss h2, transfer_iss h1]
    cases h3 with
    | empty h0 =>
      exact Quiet.of (upd_ne _ _ hj) rfl rfl hb (fun a _ => hi a) rfl rfl [_] rfl
        (by intro e he; simp at he; subst he; exact Ne.symm hj) Iff.rfl rfl
    | queued h0 hq =>
      exact Quiet.of (upd_ne _ _ hj) rfl rfl hb (fun a _ => hi a) rfl rfl [_] rfl
        (by intro e he; simp at he; subst he; exact Ne.symm hj) (by simp [hj]) rfl
    | full h0 hq =>
      exact Quiet.of (upd_ne _ _ hj) rfl rfl hb (fun a _ => hi a) rfl rfl [] rfl (by simp) Iff.rfl rfl
  · rw [closeOne_skip (fun i hi ho => h ⟨i, hi, ho⟩)]
    exact Quiet.refl c j s

theorem closeOne_inv {c : Cfg} {s : St} {id : Nat} (H : Inv c s) : Inv c (closeOne c s id) := by
  by_cases h : ∃ i, s.sale id = some i ∧ i.isOpen
  · obtain ⟨i, hi, ho⟩ := h
    obtain ⟨k, m, K⟩ := H.sales id i hi
    have hq := fun j (hj : j ≠ id) => closeOne_quiet (j := j) (id := id) H hj
    obtain ⟨L, L2, st, q, es, h1, h2, h3, h4⟩ := closeOne_open hi K ho
    rw [h4] at hq ⊢
    obtain ⟨b, hst⟩ := ho
    have hp := K.phase
    simp only [Phase, hst] at hp
    obtain ⟨p1, p2, p3⟩ := hp
    have hiss : ∀ a, L2.iss a = s.ledger.iss a := fun a => by rw [transfer_iss h2, transfer_iss h1]
    have cl : ¬ (i.paying ∨ i.isOver) := by
      rintro (⟨_, _, o⟩ | ⟨_, o⟩) <;> rw [hst] at o <;> cases o
    have outs : ∀ w, w ∉ s.keys id → s.contrib id w = 0 ∧ put id w s.events = 0 ∧ got id w s.events = [] := by
      intro w hw
      obtain ⟨o1, o2 | ⟨o2, _⟩⟩ := K.outKeys w hw
      · exact ⟨o1, o2⟩
      · exact absurd o2 cl
    have hsound := Ledger.transfer_sound h2 (Ledger.transfer_sound h1 H.sound)
    have hput : ∀ w, put id w es = put id w s.events := by intro w; cases h3 <;> rfl
    have hgot : ∀ w, got id w es = got id w s.events := by intro w; cases h3 <;> rfl
    have hred : redeemed id es = redeemed id s.events := by cases h3 <;> rfl
    -- what is left in the vault
    have hcover : i.raised * unit < U128 → owed s id i m ≤ L2.bal i.voucher (c.vault id) := by
      intro hr
      have hl : ((s.keys id).map (s.contrib id)).sum ≤ i.raised := by
        have e : (s.keys id).map (s.contrib id) = (s.keys id).map (fun w => put id w s.events) := by
          apply List.map_congr_left
          intro w hw
          exact (K.inKeys w hw).1
        rw [e]
        exact sum_le_total K.total K.nodup
      have := kept_covers K.price (s.contrib id) (s.keys id) hl K.fits hr p2
      have hb : L.bal i.voucher (c.vault id) = s.ledger.bal i.voucher (c.vault id) :=
        transfer_self_keeps h1 (Ne.symm K.pay)
      have h5 := (Ledger.transfer_ok h2).2.2.2 (c.vault id)
      rw [if_pos rfl, if_neg (fun e => K.admin id e.symm), hb] at h5
      unfold owed
      omega
    refine Inv.target (id := id) H hsound (fun a ha => by show L2.iss a = 0; rw [hiss]; exact H.fresh a ha) rfl K.lt
      ?_ hq ?_
    · cases h3 with
      | empty h0 => exact H.nodupQ
      | queued h0 hq =>
        exact List.nodup_append.mpr ⟨H.nodupQ, by simp, by
          intro a ha b hb; simp at hb; subst hb; rintro rfl; exact p3 ha⟩
      | full h0 hq => exact H.nodupQ
    · intro i' hi'
      simp only [upd_same, Option.some.injEq] at hi'
      subst hi'
      refine ⟨k, m, {
        vault := K.vault
        admin := K.admin
        lt := K.lt
        price := K.price
        issuer := K.issuer
        pay := K.pay
        coll := K.coll
        owner := K.owner
        pub := K.pub
        max := K.max
        fits := K.fits
        issued := K.issued
        supply := by
          show L2.iss i.voucher + unit * redeemed id es = unit * m
          rw [hiss, hred]; exact K.supply
        nodup := K.nodup
        human := K.human
        inKeys := fun w hw => by
          show s.contrib id w = put id w es ∧ 0 < put id w es ∧ got id w es = []
          rw [hput, hgot]; exact K.inKeys w hw
        outKeys := fun w hw => by
          show s.contrib id w = 0 ∧ ((put id w es = 0 ∧ got id w es = []) ∨ _)
          rw [hput, hgot]
          exact ⟨(outs w hw).1, .inl (outs w hw).2⟩
        total := by
          have e : (fun w => put id w es) = (fun w => put id w s.events) := by funext w; exact hput w
          show TotalIs (fun w => put id w es) i.raised
          rw [e]; exact K.total
        raisedLt := K.raisedLt
        phase := ?_ }⟩
      cases h3 with
      | empty h0 =>
        refine ⟨?_, p3⟩
        show s.keys id = []
        cases hk : s.keys id with
        | nil => rfl
        | cons w ws =>
          exfalso
          have hw : w ∈ s.keys id := by rw [hk]; exact List.mem_cons_self ..
          have h1 := (K.inKeys w hw).2.1
          have h2 : put id w s.events ≤ i.raised := K.total.le w
          omega
      | queued h0 hq => exact ⟨h0, hcover, by simp⟩
      | full h0 hq => exact ⟨h0, hcover, p3⟩
  · rw [closeOne_skip (fun i hi ho => h ⟨i, hi, ho⟩)]
    exact H

theorem closeAll_inv {c : Cfg} : ∀ (l : List Nat) {s : St}, Inv c s → Inv c (closeAll c s l)
  | [], _, H => H
  | id :: l, _, H => closeAll_inv l (closeOne_inv (id := id) H)

theorem block_inv {c : Cfg} {s : St} (H : Inv c s) : Inv c (block c s) := by
  unfold block
  apply closeAll_inv
  exact Inv.all H H.sound H.fresh rfl H.nodupQ (fun j => { Quiet.refl c j s with sale := rfl })

/-- The invariant holds in every history in which nobody acts for a vault. -/
theorem Inv.step {c : Cfg} (hl : Limits c) {s s' : St} {op : Op} (H : Inv c s) (hc : Calm c s op)
    (h : Crowdsale.step c s op = .ok s') : Inv c s' := by
  obtain ⟨hk, hs⟩ := hc
  cases op with
  | launch who pay coll price dur v => exact launch_inv H h (hk who rfl)
  | enable who id => exact enable_inv H h
  | participate who id x => exact participate_inv H h (hk who rfl)
  | distribute => exact distribute_inv H h
  | claim who id => exact claim_inv H h
  | redeem who id q => exact redeem_inv hl H h (hk who rfl)
  | proxy who id call => exact proxy_inv H h
  | force id => exact force_inv H h
  | block => cases h; exact block_inv H
  | act who call =>
    exact act_inv H h (fun j => run_quiet h (hk who rfl j) (fun a src x e => by subst e; exact hs src rfl j))

theorem reach_inv {c : Cfg} (hl : Limits c) {g s : St} (h : Reach c (Calm c) g s) : Inv c s := by
  induction h with
  | init hg => exact Inv.init hg
  | step _ hG hs ih => exact ih.step hl hG hs

end Verif.Crowdsale
