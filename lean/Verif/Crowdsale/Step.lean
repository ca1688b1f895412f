import Verif.Crowdsale.Inv

/-!
# Every operation keeps the invariant
-/

namespace Verif.Crowdsale

/-- Nothing about sale `j`, the assets' administrators or the collections changes. -/
theorem Quiet.of {c : Cfg} {j : Nat} {s s' : St} (h1 : s'.sale j = s.sale j) (h2 : s'.keys j = s.keys j)
    (h3 : s'.contrib j = s.contrib j)
    (hb : ∀ a, s.ledger.bal a (c.vault j) ≤ s'.ledger.bal a (c.vault j))
    (hi : ∀ a, s.issuer a = some (c.vault j) → s'.ledger.iss a = s.ledger.iss a)
    (his : s'.issuer = s.issuer) (hc : s'.colls = s.colls) (es : List Ev) (he : s'.events = es ++ s.events)
    (hne : ∀ e ∈ es, e.about ≠ j) (hq : j ∈ s'.queue ↔ j ∈ s.queue) (hn : s'.next = s.next) : Quiet c j s s' where
  sale := h1
  keys := h2
  contrib := h3
  bal := hb
  iss := hi
  issuer a o h := by rw [his]; exact h
  colls x k h _ _ := ⟨k.issued, by rw [hc]; exact h, le_refl _⟩
  events := ⟨es, he, hne⟩
  queue := hq
  next := by rw [hn]

/-! ## Launching and opening -/

theorem launch_quiet {c : Cfg} {s s' : St} {who : Acct} {pay : AssetId} {coll price dur : Nat} {v : AssetId}
    (h : launch c s who pay coll price dur v = .ok s') (hw : ∀ id, who ≠ c.vault id) {j : Nat} (hj : j ≠ s.next) :
    Quiet c j s s' := by
  obtain ⟨k, m, L, _, _, _, h4, _, _, _, h8, h9, _, h11, rfl⟩ := launch_ok h
  exact {
    sale := upd_ne _ _ hj
    keys := rfl
    contrib := rfl
    bal := fun a => Ledger.mint_mono h11 a _
    iss := fun a ha => by
      have e : a ≠ v := by rintro rfl; rw [h9] at ha; cases ha
      exact (Ledger.mint_ok h11).2.2.1 a e
    issuer := fun a o ha => by
      have e : a ≠ v := by rintro rfl; rw [h9] at ha; cases ha
      simp only [upd_ne _ _ e]; exact ha
    colls := fun x k' hk ho _ => by
      have e : x ≠ coll := by
        rintro rfl
        rw [h4] at hk; cases hk
        exact hw j (h8.symm.trans ho)
      exact ⟨k'.issued, by simp only [upd_ne _ _ e]; exact hk, le_refl _⟩
    events := ⟨[.created s.next _], rfl, by intro e he; simp at he; subst he; exact Ne.symm hj⟩
    queue := Iff.rfl
    next := Nat.le_succ _ }

theorem launch_inv {c : Cfg} {s s' : St} {who : Acct} {pay : AssetId} {coll price dur : Nat} {v : AssetId}
    (H : Inv c s) (h : launch c s who pay coll price dur v = .ok s') (hw : ∀ id, who ≠ c.vault id) : Inv c s' := by
  have q := fun j (hj : j ≠ s.next) => launch_quiet h hw hj
  obtain ⟨k, m, L, h1, h2, h3, h4, h5, h6, h7, h8, h9, h10, h11, rfl⟩ := launch_ok h
  obtain ⟨g1, g2, g3, g4, g5⟩ := Ledger.mint_ok h11
  obtain ⟨b1, b2, b3, b4, b5⟩ := H.blank s.next (le_refl _)
  exact {
    sound := Ledger.mint_sound h11 H.sound
    fresh := fun a ha => by
      by_cases e : a = v
      · subst e; simp at ha
      · simp only [upd_ne _ _ e] at ha
        show L.iss a = 0
        rw [g3 a e]; exact H.fresh a ha
    nodupQ := H.nodupQ
    sales := fun j i hi => by
      by_cases e : j = s.next
      · subst e
        simp only [upd_same, Option.some.injEq] at hi
        subst hi
        have p0 : ∀ w, put s.next w s.events = 0 := fun w => put_nil b4
        have q0 : ∀ w, got s.next w s.events = [] := fun w => got_nil b4
        have r0 : redeemed s.next s.events = 0 := redeemed_nil b4
        refine ⟨{ k with owner := c.vault s.next }, m, {
          vault := rfl
          admin := hw
          lt := Nat.lt_succ_self _
          price := Nat.pos_of_ne_zero h2
          issuer := upd_same _ _ _
          pay := ?_
          coll := upd_same _ _ _
          owner := rfl
          pub := h7
          max := h5
          fits := h10
          issued := by rw [h6]; exact Nat.zero_le _
          supply := ?_
          nodup := by rw [b2]; exact List.nodup_nil
          human := by intro w hw; rw [b2] at hw; cases hw
          inKeys := by intro w hw; rw [b2] at hw; cases hw
          outKeys := fun w _ => ⟨b3 w, .inl ⟨p0 w, q0 w⟩⟩
          total := ?_
          raisedLt := by simp only [U128]; omega
          phase := ⟨b2, rfl, ?_, b5⟩ }⟩
        · show pay ≠ v
          rintro rfl; exact h1 h9
        · show L.iss v + unit * redeemed s.next s.events = unit * m
          rw [g2, H.fresh v h9, r0]; ring
        · have e : (fun w => put s.next w (Ev.created s.next
              ⟨.pending s.now, who, c.vault s.next, pay, coll, price, 0, 0, v, dur⟩ :: s.events)) = fun _ => 0 := by
            funext w; exact p0 w
          show TotalIs (fun w => put s.next w (Ev.created s.next _ :: s.events)) 0
          rw [e]; exact TotalIs.zero
        · show m * unit ≤ L.bal v (c.vault s.next)
          rw [g5, if_pos rfl]; exact Nat.le_add_left _ _
      · simp only [upd_ne _ _ e] at hi
        obtain ⟨k', m', hk⟩ := H.sales j i hi
        obtain ⟨n, h⟩ := hk.quiet (q j e)
        exact ⟨_, _, h⟩
    blank := fun j hj => by
      have hj' : s.next + 1 ≤ j := hj
      obtain ⟨b1, b2, b3, b4, b5⟩ := H.blank j (by omega)
      refine ⟨by simp only [upd_ne _ _ (show j ≠ s.next by omega)]; exact b1, b2, b3, ?_, b5⟩
      intro e he
      rcases List.mem_cons.mp he with rfl | he
      · show s.next ≠ j; omega
      · exact b4 e he }

theorem enable_inv {c : Cfg} {s s' : St} {who : Acct} {id : Nat} (H : Inv c s) (h : enable c s who id = .ok s') :
    Inv c s' := by
  obtain ⟨i, b, h1, h2, h3, rfl⟩ := enable_ok h
  obtain ⟨k, m, K⟩ := H.sales id i h1
  have hp := K.phase
  simp only [Phase, h2] at hp
  refine Inv.target (id := id) H H.sound H.fresh rfl K.lt H.nodupQ ?_ ?_
  · intro j hj
    exact Quiet.of (upd_ne _ _ hj) rfl rfl (fun _ => le_refl _) (fun _ _ => rfl) rfl rfl [_] rfl
      (by intro e he; simp at he; subst he; exact Ne.symm hj) Iff.rfl rfl
  · intro i' hi'
    simp only [upd_same, Option.some.injEq] at hi'
    subst hi'
    refine ⟨k, m, { K with
      outKeys := fun w hw => ?_
      phase := ?_ }⟩
    · obtain ⟨o1, o2 | ⟨o2 | o2, _⟩⟩ := K.outKeys w hw
      · exact ⟨o1, .inl o2⟩
      · obtain ⟨_, _, o⟩ := o2; rw [h2] at o; cases o
      · obtain ⟨_, o⟩ := o2; rw [h2] at o; cases o
    · show i.raised ≤ s.ledger.bal i.pay (c.vault id) ∧ _ ∧ _
      rw [hp.2.1]
      exact ⟨Nat.zero_le _, hp.2.2.1, hp.2.2.2⟩

/-! ## Contributing -/

theorem put_participated (id : Nat) (who w : Acct) (x : Nat) (es : List Ev) :
    put id w (.participated id who x :: es) = put id w es + (if w = who then x else 0) := by
  simp only [put]
  by_cases e : w = who
  · subst e; simp; omega
  · rw [if_neg (by rintro ⟨_, h⟩; exact e h.symm), if_neg e]; omega

theorem participate_inv {c : Cfg} {s s' : St} {who : Acct} {id x : Nat} (H : Inv c s)
    (h : participate c s who id x = .ok s') (hw : ∀ id, who ≠ c.vault id) : Inv c s' := by
  obtain ⟨i, b, L, h0, h1, h2, h3, rfl⟩ := participate_ok h
  obtain ⟨k, m, K⟩ := H.sales id i h1
  have hp := K.phase
  simp only [Phase, h2] at hp
  obtain ⟨p1, p2, p3⟩ := hp
  have hs := Ledger.transfer_sound h3 H.sound
  obtain ⟨t1, t2, t3, t4⟩ := Ledger.transfer_ok h3
  have hv : L.bal i.pay (c.vault id) = s.ledger.bal i.pay (c.vault id) + x := by
    have := t4 (c.vault id)
    rw [if_neg (fun e => hw id e.symm), if_pos K.vault.symm] at this
    omega
  have hlt := hs.bal_lt i.pay (c.vault id)
  have er : satAdd i.raised x = i.raised + x := min_eq_left (by omega)
  have hle : put id who s.events ≤ i.raised := K.total.le who
  have cl : ¬ (i.paying ∨ i.isOver) := by
    rintro (⟨_, _, o⟩ | ⟨_, o⟩) <;> rw [h2] at o <;> cases o
  have outs : ∀ w, w ∉ s.keys id → s.contrib id w = 0 ∧ put id w s.events = 0 ∧ got id w s.events = [] := by
    intro w hw
    obtain ⟨o1, o2 | ⟨o2, _⟩⟩ := K.outKeys w hw
    · exact ⟨o1, o2⟩
    · exact absurd o2 cl
  have ec : (if who ∈ s.keys id then satAdd (s.contrib id who) x else x) = put id who s.events + x := by
    split
    · rename_i hk
      rw [(K.inKeys who hk).1]
      exact min_eq_left (by omega)
    · rename_i hk
      rw [(outs who hk).2.1]; omega
  rw [er, ec]
  have hmem : ∀ w, w ∈ (if who ∈ s.keys id then s.keys id else insertKey c.rank who (s.keys id)) ↔
      w = who ∨ w ∈ s.keys id := by
    intro w
    split
    · rename_i hk
      exact ⟨.inr, by rintro (rfl | h); exact hk; exact h⟩
    · exact mem_insertKey
  refine Inv.target (id := id) H hs (fun a ha => by rw [t2]; exact H.fresh a ha) rfl K.lt H.nodupQ ?_ ?_
  · intro j hj
    exact Quiet.of (upd_ne _ _ hj) (upd_ne _ _ hj) (upd_ne _ _ hj) (transfer_keeps h3 (hw j))
      (fun a _ => by rw [t2]) rfl rfl [_] rfl
      (by intro e he; simp at he; subst he; exact Ne.symm hj) Iff.rfl rfl
  · intro i' hi'
    simp only [upd_same, Option.some.injEq] at hi'
    subst hi'
    refine ⟨k, m, {
      vault := K.vault
      admin := K.admin
      lt := K.lt
      price := K.price
      issuer := K.issuer
      pay := K.pay
      coll := K.coll
      owner := K.owner
      pub := K.pub
      max := K.max
      fits := K.fits
      issued := K.issued
      supply := by simp only [t2]; exact K.supply
      nodup := ?_
      human := ?_
      inKeys := ?_
      outKeys := ?_
      total := ?_
      raisedLt := by show i.raised + x < U128; omega
      phase := ?_ }⟩
    · simp only [upd_same]
      split
      · exact K.nodup
      · rename_i hk; exact nodup_insertKey K.nodup hk
    · intro w hw'
      simp only [upd_same, hmem] at hw'
      rcases hw' with rfl | hw'
      · exact hw id
      · exact K.human w hw'
    · intro w hw'
      simp only [upd_same, hmem] at hw'
      simp only [upd_same, put_participated]
      have eg : got id w (.participated id who x :: s.events) = got id w s.events := rfl
      rw [eg]
      by_cases e : w = who
      · subst e
        simp only [upd_same, if_true]
        refine ⟨trivial, by omega, ?_⟩
        by_cases hk : w ∈ s.keys id
        · exact (K.inKeys w hk).2.2
        · exact (outs w hk).2.2
      · rw [upd_ne _ _ e, if_neg e]
        rcases hw' with rfl | hk
        · exact absurd rfl e
        · simpa using K.inKeys w hk
    · intro w hw'
      simp only [upd_same, hmem, not_or] at hw'
      simp only [upd_same, put_participated, upd_ne _ _ hw'.1, if_neg hw'.1]
      obtain ⟨o1, o2, o3⟩ := outs w hw'.2
      exact ⟨o1, .inl ⟨by omega, o3⟩⟩
    · have e : (fun w => put id w (Ev.participated id who x :: s.events)) =
          upd (fun w => put id w s.events) who (put id who s.events + x) := by
        funext w
        rw [put_participated, upd_apply]
        split
        · rename_i h; rw [h]
        · rfl
      show TotalIs (fun w => put id w (Ev.participated id who x :: s.events)) (i.raised + x)
      rw [e]
      exact K.total.upd_add who x
    · show (match i.status with
        | .pending _ => _ | .enabled _ => _ | .failed _ => _ | .distributing _ _ => _ | .ended _ => _)
      simp only [h2]
      refine ⟨?_, ?_, p3⟩
      · show i.raised + x ≤ L.bal i.pay (c.vault id)
        omega
      · show _ ≤ L.bal i.voucher (c.vault id)
        rw [t3 _ (Ne.symm K.pay)]
        exact p2

end Verif.Crowdsale
