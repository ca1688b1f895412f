import Verif.Crowdsale.Frames

/-!
# Inversion of the operations
-/

namespace Verif.Crowdsale

theorem nftMint_ok {c : Cfg} {s s' : St} {who : Acct} {coll q : Nat} (h : nftMint c s who coll q = .ok s') :
    ∃ k, s.colls coll = some k ∧ q ≤ c.mintLimit ∧ k.mintable = true ∧ 0 < q ∧ (k.owner = who ∨ k.pub = true) ∧
      k.next + q < U32 ∧ k.next + q ≤ k.max.getD (U32 - 1) ∧
      s' = { s with colls := upd s.colls coll (some { k with
        issued := k.issued + q
        next := k.next + q }) } := by
  unfold nftMint at h
  simp only [bind_ok, ensure_ok, okOr_ok, pure_ok] at h
  obtain ⟨_, h1, k, h2, _, h3, _, h4, _, h5, _, h6, _, h7, _, h8, _, h9, rfl⟩ := h
  exact ⟨k, h2, h1, h3, h4, h5, h7, h9, rfl⟩

theorem editColl_ok {s s' : St} {who : Acct} {coll : Nat} {f : Coll → Except Err Coll}
    (h : editColl s who coll f = .ok s') :
    ∃ k k', s.colls coll = some k ∧ k.owner = who ∧ f k = .ok k' ∧ s' = { s with colls := upd s.colls coll (some k') } := by
  unfold editColl at h
  simp only [bind_ok, ensure_ok, okOr_ok, pure_ok] at h
  obtain ⟨k, h1, _, h2, k', h3, rfl⟩ := h
  exact ⟨k, k', h1, h2, h3, rfl⟩

/-- Changing a collection that does not belong to the vault, or only lowering the issuance. -/
theorem Quiet.coll {c : Cfg} {j : Nat} {s : St} {coll : Nat} {k k' : Coll} (hk : s.colls coll = some k)
    (h : k.owner = c.vault j → k.pub = false → ∃ n, k' = { k with issued := n } ∧ n ≤ k.issued) :
    Quiet c j s { s with colls := upd s.colls coll (some k') } where
  sale := rfl
  keys := rfl
  contrib := rfl
  bal _ := le_refl _
  iss _ _ := rfl
  issuer _ _ h := h
  colls x k0 h0 ho hp := by
    by_cases e : x = coll
    · subst e
      rw [hk] at h0; cases h0
      obtain ⟨n, rfl, hn⟩ := h ho hp
      exact ⟨n, upd_same _ _ _, hn⟩
    · exact ⟨k0.issued, by simp only [upd_ne _ _ e]; exact h0, le_refl _⟩
  events := ⟨[], rfl, by simp⟩
  queue := Iff.rfl
  next := le_refl _

theorem editColl_quiet {c : Cfg} {j : Nat} {s s' : St} {who : Acct} {coll : Nat} {f : Coll → Except Err Coll}
    (h : editColl s who coll f = .ok s') (hw : who ≠ c.vault j) : Quiet c j s s' := by
  obtain ⟨k, k', h1, h2, _, rfl⟩ := editColl_ok h
  exact Quiet.coll h1 (fun ho => absurd (h2.symm.trans ho) hw)

theorem editColl_pure {c : Cfg} {j : Nat} {s s' : St} {who : Acct} {coll : Nat}
    (h : editColl s who coll pure = .ok s') : Quiet c j s s' := by
  obtain ⟨k, k', h1, h2, h3, rfl⟩ := editColl_ok h
  cases h3
  exact Quiet.coll h1 (fun _ _ => ⟨k.issued, rfl, le_refl _⟩)

/-- The vault is not touched by what other accounts do. -/
theorem run_quiet {c : Cfg} {j : Nat} {s s' : St} {who : Acct} {call : Call} (h : run c s who call = .ok s')
    (hw : who ≠ c.vault j) (hs : ∀ a src x, call = .burnAsset a src x → src ≠ c.vault j) : Quiet c j s s' := by
  cases call with
  | remark => cases h; exact Quiet.refl c j _
  | setBaseUri coll => exact editColl_quiet h hw
  | setName coll => exact editColl_quiet h hw
  | setRoyalties coll => exact editColl_quiet h hw
  | setOwner coll new => exact editColl_quiet h hw
  | setMax coll m => exact editColl_quiet h hw
  | setPublic coll on => exact editColl_quiet h hw
  | setMintable coll on => exact editColl_quiet h hw
  | transfer a dst x =>
    simp only [run, bind_ok, pure_ok] at h
    obtain ⟨L, h1, rfl⟩ := h
    exact Quiet.ledger (transfer_keeps h1 hw) (fun a _ => by rw [transfer_iss h1])
  | createAsset a =>
    simp only [run, bind_ok, ensure_ok, pure_ok] at h
    obtain ⟨_, h1, rfl⟩ := h
    exact { Quiet.refl c j s with
      issuer := fun b o hb => by
        by_cases e : b = a
        · subst e; rw [h1] at hb; cases hb
        · simp only [upd_ne _ _ e]; exact hb }
  | mintAsset a dst x =>
    simp only [run, bind_ok, ensure_ok, pure_ok] at h
    obtain ⟨_, h1, L, h2, rfl⟩ := h
    refine Quiet.ledger (fun b => Ledger.mint_mono h2 b _) (fun b hb => ?_)
    by_cases e : b = a
    · subst e; rw [h1] at hb; cases hb; exact absurd rfl hw
    · exact (Ledger.mint_ok h2).2.2.1 b e
  | burnAsset a src x =>
    simp only [run, bind_ok, ensure_ok, pure_ok] at h
    obtain ⟨_, h1, L, h2, rfl⟩ := h
    refine Quiet.ledger (fun b => Ledger.burn_mono h2 b _ (fun _ => (hs a src x rfl).symm)) (fun b hb => ?_)
    by_cases e : b = a
    · subst e; rw [h1] at hb; cases hb; exact absurd rfl hw
    · exact (Ledger.burn_ok h2).2.2.1 b e
  | createColl coll m =>
    simp only [run, bind_ok, ensure_ok, pure_ok] at h
    obtain ⟨_, h1, rfl⟩ := h
    exact { Quiet.refl c j s with
      colls := fun x k hk _ _ => by
        by_cases e : x = coll
        · subst e; rw [h1] at hk; cases hk
        · exact ⟨k.issued, by simp only [upd_ne _ _ e]; exact hk, le_refl _⟩ }
  | mintNft coll q =>
    obtain ⟨k, h1, _, _, _, h2, _, _, rfl⟩ := nftMint_ok h
    refine Quiet.coll h1 (fun ho hp => ?_)
    rcases h2 with h2 | h2
    · exact absurd (h2.symm.trans ho) hw
    · rw [hp] at h2; cases h2
  | burnNft coll =>
    simp only [run, bind_ok, ensure_ok, okOr_ok, pure_ok] at h
    obtain ⟨k, h1, _, h2, rfl⟩ := h
    exact Quiet.coll h1 (fun _ _ => ⟨k.issued - 1, rfl, Nat.sub_le _ _⟩)

/-- The calls a vault may be asked to make change nothing that matters. -/
theorem run_allowed {c : Cfg} {j : Nat} {s s' : St} {who : Acct} {call : Call} (h : run c s who call = .ok s')
    (ha : allowed call = true) : Quiet c j s s' := by
  cases call with
  | remark => cases h; exact Quiet.refl c j _
  | setBaseUri coll => exact editColl_pure h
  | setName coll => exact editColl_pure h
  | setRoyalties coll => exact editColl_pure h
  | _ => cases ha

/-- Acting on the environment does not touch the pallet's storage, and keeps the ledger adding up. -/
theorem run_frame {c : Cfg} {s s' : St} {who : Acct} {call : Call} (h : run c s who call = .ok s') :
    ∃ L is cs, s' = { s with
      ledger := L
      issuer := is
      colls := cs } ∧ (s.ledger.Sound → L.Sound) ∧
      ((∀ a, s.issuer a = none → s.ledger.iss a = 0) → ∀ a, is a = none → L.iss a = 0) := by
  cases call with
  | remark => cases h; exact ⟨_, _, _, rfl, id, id⟩
  | setBaseUri coll => obtain ⟨k, k', _, _, _, rfl⟩ := editColl_ok h; exact ⟨_, _, _, rfl, id, id⟩
  | setName coll => obtain ⟨k, k', _, _, _, rfl⟩ := editColl_ok h; exact ⟨_, _, _, rfl, id, id⟩
  | setRoyalties coll => obtain ⟨k, k', _, _, _, rfl⟩ := editColl_ok h; exact ⟨_, _, _, rfl, id, id⟩
  | setOwner coll new => obtain ⟨k, k', _, _, _, rfl⟩ := editColl_ok h; exact ⟨_, _, _, rfl, id, id⟩
  | setMax coll m => obtain ⟨k, k', _, _, _, rfl⟩ := editColl_ok h; exact ⟨_, _, _, rfl, id, id⟩
  | setPublic coll on => obtain ⟨k, k', _, _, _, rfl⟩ := editColl_ok h; exact ⟨_, _, _, rfl, id, id⟩
  | setMintable coll on => obtain ⟨k, k', _, _, _, rfl⟩ := editColl_ok h; exact ⟨_, _, _, rfl, id, id⟩
  | transfer a dst x =>
    simp only [run, bind_ok, pure_ok] at h
    obtain ⟨L, h1, rfl⟩ := h
    exact ⟨_, _, _, rfl, Ledger.transfer_sound h1, fun hf a ha => by rw [transfer_iss h1]; exact hf a ha⟩
  | createAsset a =>
    simp only [run, bind_ok, ensure_ok, pure_ok] at h
    obtain ⟨_, h1, rfl⟩ := h
    refine ⟨_, _, _, rfl, id, fun hf b hb => hf b ?_⟩
    by_cases e : b = a
    · subst e; exact h1
    · rwa [upd_ne _ _ e] at hb
  | mintAsset a dst x =>
    simp only [run, bind_ok, ensure_ok, pure_ok] at h
    obtain ⟨_, h1, L, h2, rfl⟩ := h
    refine ⟨_, _, _, rfl, Ledger.mint_sound h2, fun hf b hb => ?_⟩
    have e : b ≠ a := by rintro rfl; rw [h1] at hb; cases hb
    rw [(Ledger.mint_ok h2).2.2.1 b e]; exact hf b hb
  | burnAsset a src x =>
    simp only [run, bind_ok, ensure_ok, pure_ok] at h
    obtain ⟨_, h1, L, h2, rfl⟩ := h
    refine ⟨_, _, _, rfl, Ledger.burn_sound h2, fun hf b hb => ?_⟩
    have e : b ≠ a := by rintro rfl; rw [h1] at hb; cases hb
    rw [(Ledger.burn_ok h2).2.2.1 b e]; exact hf b hb
  | createColl coll m =>
    simp only [run, bind_ok, ensure_ok, pure_ok] at h
    obtain ⟨_, h1, rfl⟩ := h
    exact ⟨_, _, _, rfl, id, id⟩
  | mintNft coll q =>
    obtain ⟨k, _, _, _, _, _, _, _, rfl⟩ := nftMint_ok h
    exact ⟨_, _, _, rfl, id, id⟩
  | burnNft coll =>
    simp only [run, bind_ok, ensure_ok, okOr_ok, pure_ok] at h
    obtain ⟨k, h1, _, h2, rfl⟩ := h
    exact ⟨_, _, _, rfl, id, id⟩

theorem launch_ok {c : Cfg} {s s' : St} {who : Acct} {pay : AssetId} {coll price dur : Nat} {v : AssetId}
    (h : launch c s who pay coll price dur v = .ok s') :
    ∃ k m L, s.issuer pay ≠ none ∧ price ≠ 0 ∧ dur ≤ c.maxDuration ∧ s.colls coll = some k ∧ k.max = some m ∧
      k.issued = 0 ∧ k.pub = false ∧ k.owner = who ∧ s.issuer v = none ∧ m * unit < U128 ∧
      s.ledger.mint v (c.vault s.next) (m * unit) = .ok L ∧
      s' = { s with
        ledger := L
        issuer := upd s.issuer v (some (c.vault s.next))
        colls := upd s.colls coll (some { k with owner := c.vault s.next })
        next := s.next + 1
        sale := upd s.sale s.next (some ⟨.pending s.now, who, c.vault s.next, pay, coll, price, 0, 0, v, dur⟩)
        events := .created s.next
          ⟨.pending s.now, who, c.vault s.next, pay, coll, price, 0, 0, v, dur⟩ :: s.events } := by
  unfold launch at h
  simp only [bind_ok, ensure_ok, okOr_ok, pure_ok] at h
  obtain ⟨_, _, _, h1, _, h2, _, h3, k, h4, m, h5, _, h6, _, h7, _, h8, _, h9, _, h10, L, h11, rfl⟩ := h
  exact ⟨k, m, L, h1, h2, h3, h4, h5, h6, h7, h8, h9, h10, h11, rfl⟩

theorem enable_ok {c : Cfg} {s s' : St} {who : Acct} {id : Nat} (h : enable c s who id = .ok s') :
    ∃ i b, s.sale id = some i ∧ i.status = .pending b ∧ i.admin = who ∧
      s' = { s with
        ending := upd s.ending (min (i.duration + s.now) (U32 - 1))
          (s.ending (min (i.duration + s.now) (U32 - 1)) ++ [id])
        sale := upd s.sale id (some { i with status := .enabled s.now })
        events := .opened id (min (i.duration + s.now) (U32 - 1)) :: s.events } := by
  unfold enable at h
  simp only [bind_ok, ensure_ok, okOr_ok, pure_ok] at h
  obtain ⟨i, h1, _, h2, _, h3, _, _, rfl⟩ := h
  split at h2
  · rename_i b hb; exact ⟨i, b, h1, hb, h3, rfl⟩
  · cases h2

theorem participate_ok {c : Cfg} {s s' : St} {who : Acct} {id x : Nat} (h : participate c s who id x = .ok s') :
    ∃ i b L, 0 < x ∧ s.sale id = some i ∧ i.status = .enabled b ∧ s.ledger.transfer i.pay who i.vault x = .ok L ∧
      s' = { s with
        ledger := L
        sale := upd s.sale id (some { i with
          raised := satAdd i.raised x
          count := if who ∈ s.keys id then i.count else min (i.count + 1) (U64 - 1) })
        keys := upd s.keys id (if who ∈ s.keys id then s.keys id else insertKey c.rank who (s.keys id))
        contrib := upd s.contrib id (upd (s.contrib id) who
          (if who ∈ s.keys id then satAdd (s.contrib id who) x else x))
        events := .participated id who x :: s.events } := by
  unfold participate at h
  simp only [bind_ok, ensure_ok, okOr_ok, pure_ok] at h
  obtain ⟨_, h0, i, h1, _, h2, L, h3, rfl⟩ := h
  split at h2
  · rename_i b hb
    refine ⟨i, b, L, h0, h1, hb, h3, ?_⟩
    by_cases e : who ∈ s.keys id <;> simp [e]
  · cases h2

theorem redeem_ok {c : Cfg} {s s' : St} {who : Acct} {id q : Nat} (h : redeem c s who id q = .ok s') :
    ∃ i k L, 0 < q ∧ s.sale id = some i ∧ (i.paying ∨ i.isOver) ∧
      s.ledger.burn i.voucher who (min (q * unit) (U32 - 1)) = .ok L ∧
      s.colls i.coll = some k ∧ q ≤ c.mintLimit ∧ (k.owner = i.vault ∨ k.pub = true) ∧
      k.next + q ≤ k.max.getD (U32 - 1) ∧
      s' = { s with
        ledger := L
        colls := upd s.colls i.coll (some { k with
          issued := k.issued + q
          next := k.next + q })
        events := .redeemed id who q :: s.events } := by
  unfold redeem at h
  simp only [bind_ok, ensure_ok, okOr_ok, pure_ok] at h
  obtain ⟨_, h0, i, h1, _, h2, L, h3, s2, h4, rfl⟩ := h
  obtain ⟨k, g1, g2, _, _, g3, _, g4, rfl⟩ := nftMint_ok h4
  refine ⟨i, k, L, h0, h1, ?_, h3, g1, g2, g3, g4, rfl⟩
  split at h2
  · rename_i b t hb; exact .inl ⟨b, t, hb⟩
  · rename_i b hb; exact .inr ⟨b, hb⟩
  · cases h2

theorem proxy_ok {c : Cfg} {s s' : St} {who : Acct} {id : Nat} {call : Call} (h : proxy c s who id call = .ok s') :
    ∃ i s1, s.sale id = some i ∧ i.admin = who ∧ allowed call = true ∧ run c s i.vault call = .ok s1 ∧
      s' = { s1 with events := .proxied id :: s1.events } := by
  unfold proxy at h
  simp only [bind_ok, ensure_ok, okOr_ok, pure_ok] at h
  obtain ⟨i, h1, _, h2, _, h3, s1, h4, rfl⟩ := h
  exact ⟨i, s1, h1, h2, h3, h4, rfl⟩

theorem force_ok {c : Cfg} {s s' : St} {id : Nat} (h : force c s id = .ok s') :
    ∃ i b, s.sale id = some i ∧ i.status = .failed b ∧
      s' = { s with
        queue := s.queue ++ [id]
        sale := upd s.sale id (some { i with
          status := if i.raised = 0 then .ended s.now else .distributing s.now 0 })
        events := .manual id :: s.events } := by
  unfold force at h
  simp only [bind_ok, ensure_ok, okOr_ok, pure_ok] at h
  obtain ⟨i, h1, _, h2, _, h3, rfl⟩ := h
  split at h2
  · rename_i b hb; exact ⟨i, b, h1, hb, rfl⟩
  · cases h2

theorem payVouchers_ok {s s' : St} {i : Sale} {who : Acct} {x supply n : Nat}
    (h : payVouchers s i who x supply = .ok (s', n)) :
    ∃ L, rewards i.price i.raised x supply = .ok n ∧
      s.ledger.transfer i.voucher i.vault who (min (s.ledger.bal i.voucher i.vault) n) = .ok L ∧
      s' = { s with ledger := L } := by
  unfold payVouchers at h
  simp only [bind_ok, pure_ok, Prod.mk.injEq] at h
  obtain ⟨n', h1, L, h2, h3, rfl⟩ := h
  exact ⟨L, h1, h2, h3.symm⟩

/-- The payment only fails if the amount cannot be computed. -/
theorem payVouchers_succeeds {s : St} {i : Sale} {who : Acct} {x supply n : Nat}
    (h : rewards i.price i.raised x supply = .ok n) : ∃ s', payVouchers s i who x supply = .ok (s', n) := by
  unfold payVouchers
  have ht : ∃ L, s.ledger.transfer i.voucher i.vault who (min (s.ledger.bal i.voucher i.vault) n) = .ok L := by
    unfold Ledger.transfer
    rw [if_pos (min_le_left _ _)]
    exact ⟨_, rfl⟩
  obtain ⟨L, hL⟩ := ht
  exact ⟨{ s with ledger := L }, by simp [h, hL]⟩

theorem distribute_ok {c : Cfg} {s s' : St} (h : distribute c s = .ok s') :
    ∃ id rest i b t k m, s.queue = id :: rest ∧ s.sale id = some i ∧ i.status = .distributing b t ∧
      s.colls i.coll = some k ∧ k.max = some m ∧
      (let r := payLoop i id m c.maxPay s t
       ((r.2.2 = true ∨ r.1.keys id = []) ∧ s' = { finish r.1 i id r.2.1 with queue := rest }) ∨
       (¬ (r.2.2 = true ∨ r.1.keys id = []) ∧
         s' = { r.1 with sale := upd r.1.sale id (some { i with status := .distributing s.now r.2.1 }) })) := by
  unfold distribute at h
  simp only [bind_ok, okOr_ok] at h
  obtain ⟨id, h1, i, h2, t, h3, k, h4, m, h5, h6⟩ := h
  split at h3
  · rename_i b t' hb
    cases h3
    have hq : s.queue = id :: s.queue.tail := by
      cases hq : s.queue with
      | nil => rw [hq] at h1; cases h1
      | cons a l => rw [hq] at h1; simp only [List.head?_cons, Option.some.injEq] at h1; rw [h1]; rfl
    refine ⟨id, s.queue.tail, i, b, t, k, m, hq, h2, hb, h4, h5, ?_⟩
    dsimp only
    split at h6
    · rename_i hc
      simp only [pure_ok] at h6
      exact .inl ⟨hc, h6.symm⟩
    · rename_i hc
      simp only [pure_ok] at h6
      exact .inr ⟨hc, h6.symm⟩
  · cases h3

theorem claim_ok {s s' : St} {who : Acct} {id : Nat} (h : claim s who id = .ok s') :
    ∃ i b t k m s2 n, s.sale id = some i ∧ i.status = .distributing b t ∧ who ∈ s.keys id ∧
      s.colls i.coll = some k ∧ k.max = some m ∧
      payVouchers (dropKey s id who) i who (s.contrib id who) m = .ok (s2, n) ∧
      ((s2.keys id = [] ∧ s' = { finish s2 i id (satAdd t n) with
          queue := s.queue.filter (· ≠ id)
          events := .claimed id who n :: (finish s2 i id (satAdd t n)).events }) ∨
       (s2.keys id ≠ [] ∧ s' = { s2 with
          sale := upd s2.sale id (some { i with status := .distributing s.now (satAdd t n) })
          events := .claimed id who n :: s2.events })) := by
  unfold claim at h
  simp only [bind_ok, okOr_ok, ensure_ok, pure_ok] at h
  obtain ⟨i, h1, t, h2, _, h3, k, h4, m, h5, ⟨s2, n⟩, h6, h7⟩ := h
  split at h2
  · rename_i b t' hb
    cases h2
    refine ⟨i, b, t, k, m, s2, n, h1, hb, h3, h4, h5, h6, ?_⟩
    subst h7
    by_cases e : s2.keys id = []
    · left; refine ⟨e, ?_⟩; rw [if_pos e]
    · right; refine ⟨e, ?_⟩; rw [if_neg e]
  · cases h2

end Verif.Crowdsale
