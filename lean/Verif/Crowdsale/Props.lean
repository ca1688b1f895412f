import Verif.Crowdsale.Time

/-!
# Crowdsale properties C48–C51, C94–C97
-/

namespace Verif.Crowdsale

/-- The collection maximum determines how many NFTs a sale sells. -/
theorem SaleInv.sells {c : Cfg} {s : St} {id : Nat} {i : Sale} {k : Coll} {m m' : Nat} (K : SaleInv c s id i k m)
    (h : Sells s i m') : m' = m := by
  obtain ⟨k', h1, h2⟩ := h
  have := K.coll; rw [h1] at this; cases this
  have := K.max; rw [h2] at this; cases this; rfl

/-! ## C48 -/

/-- C48: according to the log, once a sale is over every account was paid exactly once, its share of
what it contributed in total, and accounts that did not contribute were paid nothing. -/
theorem C48_amounts {c : Cfg} (hl : Limits c) {g s : St} (h : Reach c (Calm c) g s) {id : Nat} {i : Sale} {m : Nat}
    (hi : s.sale id = some i) (ho : i.isOver) (hm : Sells s i m) (w : Acct) :
    got id w s.events =
      if put id w s.events = 0 then [] else [share i.price i.raised m (put id w s.events)] := by
  obtain ⟨k, m', K⟩ := (reach_inv hl h).sales id i hi
  cases K.sells hm
  obtain ⟨b, hst⟩ := ho
  have hp := K.phase
  simp only [Phase, hst] at hp
  have hw : w ∉ s.keys id := by rw [hp.1]; simp
  obtain ⟨_, ⟨h1, h2⟩ | ⟨_, h1, h2⟩⟩ := K.outKeys w hw
  · rw [if_pos h1, h2]
  · rw [if_neg (by omega), h2]

/-- C48: during the payout an account has either its whole contribution still on record and no payment,
or no record and exactly one payment, its share. -/
theorem C48_pending {c : Cfg} (hl : Limits c) {g s : St} (h : Reach c (Calm c) g s) {id : Nat} {i : Sale} {m : Nat}
    (hi : s.sale id = some i) (hd : i.paying) (hm : Sells s i m) (w : Acct) (hw : put id w s.events ≠ 0) :
    (s.contrib id w = put id w s.events ∧ got id w s.events = []) ∨
    (s.contrib id w = 0 ∧ got id w s.events = [share i.price i.raised m (put id w s.events)]) := by
  obtain ⟨k, m', K⟩ := (reach_inv hl h).sales id i hi
  cases K.sells hm
  by_cases hk : w ∈ s.keys id
  · obtain ⟨h1, h2, h3⟩ := K.inKeys w hk
    exact .inl ⟨h1, h3⟩
  · obtain ⟨h0, ⟨h1, h2⟩ | ⟨_, h1, h2⟩⟩ := K.outKeys w hk
    · exact absurd h1 hw
    · exact .inr ⟨h0, h2⟩

/-- C48 (partial: funds of at most 2^128 / 10^6): while vouchers are paid out, the vault holds at least the shares
of any set of distinct accounts that have not been paid. -/
theorem C48_covered_partial {c : Cfg} (hl : Limits c) {g s : St} (h : Reach c (Calm c) g s) {id : Nat} {i : Sale}
    {m : Nat} (hi : s.sale id = some i) (hd : i.paying) (hm : Sells s i m) (hr : i.raised * 1000000 < U128)
    (l : List Acct) (hn : l.Nodup) :
    (l.map (fun w => share i.price i.raised m (s.contrib id w))).sum ≤ s.ledger.bal i.voucher i.vault := by
  obtain ⟨k, m', K⟩ := (reach_inv hl h).sales id i hi
  cases K.sells hm
  obtain ⟨b, t, hst⟩ := hd
  have hp := K.phase
  simp only [Phase, hst] at hp
  have h9 := hp.2.1 hr
  rw [← K.vault] at h9
  refine le_trans ?_ h9
  have ht : TotalIs (fun w => share i.price i.raised m (s.contrib id w)) (owed s id i m) := by
    refine ⟨(s.keys id).toFinset, ?_, ?_⟩
    · intro w hw
      have hk : w ∉ s.keys id := by simpa using hw
      show share i.price i.raised m (s.contrib id w) = 0
      rw [(K.outKeys w hk).1]
      unfold share; split <;> simp
    · exact List.sum_toFinset _ K.nodup
  exact sum_le_total ht hn

/-- C48 (partial: funds of at most 2^128 / 10^6): in any order, a contributor who claims receives exactly the
share of the recorded contribution. (The administrator may in addition receive what is left over.) -/
theorem C48_claim_partial {c : Cfg} (hl : Limits c) {g s : St} (h : Reach c (Calm c) g s) {id : Nat} {i : Sale}
    {m : Nat} (hi : s.sale id = some i) (hd : i.paying) (hm : Sells s i m) (hr : i.raised * 1000000 < U128)
    {w : Acct} (hw : s.contrib id w ≠ 0) :
    ∃ s', step c s (.claim w id) = .ok s' ∧
      s.ledger.bal i.voucher w + share i.price i.raised m (s.contrib id w) ≤ s'.ledger.bal i.voucher w ∧
      (w ≠ i.admin → s'.ledger.bal i.voucher w =
        s.ledger.bal i.voucher w + share i.price i.raised m (s.contrib id w)) := by
  obtain ⟨k, m', K⟩ := (reach_inv hl h).sales id i hi
  cases K.sells hm
  have hk : w ∈ s.keys id := by
    by_contra hk
    exact hw (K.outKeys w hk).1
  obtain ⟨c1, _, _⟩ := K.inKeys w hk
  have hx : s.contrib id w ≤ i.raised := by rw [c1]; exact K.total.le w
  obtain ⟨s2, h2⟩ := payVouchers_succeeds (s := dropKey s id w) (who := w) (rewards_eq K.price K.raisedLt hx K.fits)
  obtain ⟨_, g2, g3, g4, g5, g6, g7, g8⟩ := pay_one K hd hk h2
  have hwv := K.human w hk
  have hb := g7 hr w hwv
  rw [if_pos rfl] at hb
  have hd' := hd
  obtain ⟨b, t, hst⟩ := hd'
  have hok : ∃ s', claim s w id = .ok s' := by
    unfold claim
    simp only [hi, hst, okOr, ensure_pos hk, K.coll, K.max, h2, bind, Except.bind, pure, Except.pure]
    exact ⟨_, rfl⟩
  obtain ⟨s', hs'⟩ := hok
  refine ⟨s', hs', ?_⟩
  obtain ⟨i', b', t', k', m'', s2', n', e1, e2, e3, e4, e5, e6, e7⟩ := claim_ok hs'
  rw [hi] at e1; cases e1
  rw [K.coll] at e4; cases e4
  rw [K.max] at e5; cases e5
  rw [h2] at e6; cases e6
  rcases e7 with ⟨_, rfl⟩ | ⟨_, rfl⟩
  · obtain ⟨L, hf, hL⟩ := finish_frame (s := s2) (i := i) (id := id)
      (t := satAdd t' (share i.price i.raised m (s.contrib id w)))
    rw [hf]
    show _ ≤ L.bal i.voucher w ∧ (_ → L.bal i.voucher w = _)
    have h4 := (Ledger.transfer_ok hL).2.2.2 w
    rw [if_neg (by rw [K.vault]; exact hwv)] at h4
    refine ⟨by omega, fun ha => ?_⟩
    rw [if_neg ha] at h4
    omega
  · exact ⟨le_of_eq hb.symm, fun _ => hb⟩

/-- C48 (partial: funds of at most 2^128 / 10^6): a payout call pays exactly their shares to the next
contributors in line, and nothing to others. -/
theorem C48_batch_partial {c : Cfg} (hl : Limits c) {g s s' : St} (h : Reach c (Calm c) g s) {id : Nat} {rest : List Nat}
    {i : Sale} {m : Nat} (hq : s.queue = id :: rest) (hi : s.sale id = some i) (hm : Sells s i m)
    (hr : i.raised * 1000000 < U128) (hs : step c s .distribute = .ok s') {w : Acct} (hv : w ≠ i.vault)
    (ha : w ≠ i.admin) :
    s'.ledger.bal i.voucher w = s.ledger.bal i.voucher w +
      (if w ∈ (s.keys id).take c.maxPay then share i.price i.raised m (s.contrib id w) else 0) := by
  obtain ⟨id', rest', i', b, t, k, m', h1, h2, h3, h4, h5, h6⟩ := distribute_ok hs
  rw [hq] at h1; cases h1
  rw [hi] at h2; cases h2
  obtain ⟨k', m'', K⟩ := (reach_inv hl h).sales id i hi
  cases K.sells hm
  have := K.coll; rw [h4] at this; cases this
  have := K.max; rw [h5] at this; cases this
  obtain ⟨r1, r2, r3, r4, r5, r6⟩ := payLoop_inv (c := c) ⟨b, t, h3⟩ c.maxPay s t K
  rw [K.vault] at hv
  rw [← r5 hr w hv]
  dsimp only at h6
  rcases h6 with ⟨_, rfl⟩ | ⟨_, rfl⟩
  · obtain ⟨L, hf, hL⟩ := finish_frame (s := (payLoop i id m c.maxPay s t).1) (i := i) (id := id)
      (t := (payLoop i id m c.maxPay s t).2.1)
    rw [hf]
    show L.bal i.voucher w = _
    have h7 := (Ledger.transfer_ok hL).2.2.2 w
    rw [if_neg (by rw [K.vault]; exact hv), if_neg ha] at h7
    omega
  · rfl

/-! ## C49 -/

/-- C49: while a sale is open, the recorded contributions add up to the funds raised, and the vault holds them. -/
theorem C49_open {c : Cfg} (hl : Limits c) {g s : St} (h : Reach c (Calm c) g s) {id : Nat} {i : Sale}
    (hi : s.sale id = some i) (ho : i.isOpen) :
    TotalIs (s.contrib id) i.raised ∧ i.raised ≤ s.ledger.bal i.pay i.vault := by
  obtain ⟨k, m, K⟩ := (reach_inv hl h).sales id i hi
  obtain ⟨b, hst⟩ := ho
  have hp := K.phase
  simp only [Phase, hst] at hp
  refine ⟨K.total.congr (fun w => ?_), by rw [K.vault]; exact hp.1⟩
  by_cases hk : w ∈ s.keys id
  · exact (K.inKeys w hk).1
  · obtain ⟨h0, ⟨h1, _⟩ | ⟨h1 | h1, _⟩⟩ := K.outKeys w hk
    · rw [h0, h1]
    · obtain ⟨_, _, o⟩ := h1; rw [hst] at o; cases o
    · obtain ⟨_, o⟩ := h1; rw [hst] at o; cases o

/-- C49: in every stage the funds raised are the sum of everything contributed, and a record that still exists is the
account's total contribution. -/
theorem C49_recorded {c : Cfg} (hl : Limits c) {g s : St} (h : Reach c (Calm c) g s) {id : Nat} {i : Sale}
    (hi : s.sale id = some i) :
    TotalIs (fun w => put id w s.events) i.raised ∧
    ∀ w, s.contrib id w ≠ 0 → s.contrib id w = put id w s.events := by
  obtain ⟨k, m, K⟩ := (reach_inv hl h).sales id i hi
  refine ⟨K.total, fun w hw => ?_⟩
  by_cases hk : w ∈ s.keys id
  · exact (K.inKeys w hk).1
  · exact absurd (K.outKeys w hk).1 hw

/-- A contribution moves exactly the amount from the contributor to the vault and adds it to the funds raised and
to the account's record. -/
theorem C49_contribute {c : Cfg} (hl : Limits c) {g s s' : St} (h : Reach c (Calm c) g s) {who : Acct} {id x : Nat}
    (hG : Calm c s (.participate who id x)) (hs : step c s (.participate who id x) = .ok s') :
    ∃ i, s.sale id = some i ∧ i.isOpen ∧ 0 < x ∧
      s'.sale id = some { i with
        raised := i.raised + x
        count := ((s'.sale id).map Sale.count).getD 0 } ∧
      s'.contrib id who = s.contrib id who + x ∧
      s'.ledger.bal i.pay who + x = s.ledger.bal i.pay who ∧
      s'.ledger.bal i.pay i.vault = s.ledger.bal i.pay i.vault + x := by
  have H := reach_inv hl h
  have H' := H.step hl hG hs
  obtain ⟨i, b, L, h0, h1, h2, h3, rfl⟩ := participate_ok hs
  obtain ⟨k, m, K⟩ := H.sales id i h1
  have hp := K.phase
  simp only [Phase, h2] at hp
  obtain ⟨t1, t2, t3, t4⟩ := Ledger.transfer_ok h3
  have hw := hG.1 who rfl id
  have hv : i.vault ≠ who := by rw [K.vault]; exact fun e => hw e.symm
  have a1 := t4 who
  have a2 := t4 i.vault
  rw [if_pos rfl, if_neg (Ne.symm hv)] at a1
  rw [if_neg hv, if_pos rfl] at a2
  have hlt := (Ledger.transfer_sound h3 H.sound).bal_lt i.pay i.vault
  have hpr := hp.1
  rw [← K.vault] at hpr
  have er : satAdd i.raised x = i.raised + x := min_eq_left (by omega)
  refine ⟨i, h1, ⟨b, h2⟩, h0, ?_, ?_, by simpa using a1, by simpa using a2⟩
  · simp only [upd_same, er, Option.map_some, Option.getD_some]
  · simp only [upd_same]
    by_cases hk : who ∈ s.keys id
    · rw [if_pos hk]
      have : s.contrib id who ≤ i.raised := by rw [(K.inKeys who hk).1]; exact K.total.le who
      exact min_eq_left (by omega)
    · rw [if_neg hk, (K.outKeys who hk).1]; omega

/-- C49: when a block closes several sales, then in the turn of each of them that is open its administrator
receives exactly the funds raised, taken from the vault, and no other account's balance of the payment asset changes. -/
theorem C49_close {c : Cfg} (hl : Limits c) {g s : St} (h : Reach c (Calm c) g s) {id : Nat} {i : Sale}
    {pre post : List Nat} (he : s.ending (s.now + 1) = pre ++ id :: post) (hi : s.sale id = some i) (ho : i.isOpen)
    (hp : id ∉ pre) :
    ∃ a b i', step c s .block = .ok (closeAll c b post) ∧ b = closeOne c a id ∧ a.sale id = some i ∧
      b.sale id = some i' ∧ ¬ i'.isOpen ∧ i'.raised = i.raised ∧
      b.ledger.bal i.pay i.admin = a.ledger.bal i.pay i.admin + i.raised ∧
      b.ledger.bal i.pay i.vault + i.raised = a.ledger.bal i.pay i.vault ∧
      ∀ y, y ≠ i.admin → y ≠ i.vault → b.ledger.bal i.pay y = a.ledger.bal i.pay y := by
  have H := reach_inv hl h
  let s0 : St := { s with
    now := s.now + 1
    ending := upd s.ending (s.now + 1) [] }
  have H0 : Inv c s0 := Inv.all H H.sound H.fresh rfl H.nodupQ (fun j => { Quiet.refl c j s with sale := rfl })
  have split : ∀ (l : List Nat) (t : St), closeAll c t (l ++ id :: post) =
      closeAll c (closeOne c (closeAll c t l) id) post := by
    intro l
    induction l with
    | nil => intro t; rfl
    | cons x xs ih => intro t; exact ih (closeOne c t x)
  have keep : ∀ (l : List Nat) (t : St), id ∉ l → Inv c t → Quiet c id t (closeAll c t l) := by
    intro l
    induction l with
    | nil => intro t _ _; exact Quiet.refl c id t
    | cons x xs ih =>
      intro t hx Ht
      simp only [List.mem_cons, not_or] at hx
      exact (closeOne_quiet (id := x) Ht hx.1).trans (ih _ hx.2 (closeOne_inv Ht))
  have Ha : Inv c (closeAll c s0 pre) := closeAll_inv pre H0
  have hai : (closeAll c s0 pre).sale id = some i := by
    rw [(keep pre s0 hp H0).sale]; exact hi
  obtain ⟨k, m, K⟩ := Ha.sales id i hai
  obtain ⟨L, L2, st, q, es, h1, h2, h3, h4⟩ := closeOne_open hai K ho
  refine ⟨closeAll c s0 pre, closeOne c (closeAll c s0 pre) id, { i with status := st }, ?_, rfl, hai, ?_, ?_, rfl, ?_⟩
  · show Except.ok (block c s) = _
    unfold block
    rw [he, split]
  · rw [h4]; exact upd_same _ _ _
  · rintro ⟨b, hb⟩
    cases h3 <;> cases hb
  · rw [h4]
    show L2.bal i.pay i.admin = _ ∧ L2.bal i.pay i.vault + _ = _ ∧ ∀ y, _ → _ → L2.bal i.pay y = _
    have hav : i.admin ≠ c.vault id := K.admin id
    have hkeep : ∀ y, L2.bal i.pay y = L.bal i.pay y := fun y => transfer_self_keeps h2 K.pay
    have t4 := (Ledger.transfer_ok h1).2.2.2
    rw [hkeep, hkeep, K.vault]
    refine ⟨?_, ?_, fun y h1 h2 => ?_⟩
    · have := t4 i.admin
      rw [if_neg hav, if_pos rfl] at this
      exact this
    · have := t4 (c.vault id)
      rw [if_pos rfl, if_neg (Ne.symm hav)] at this
      exact this
    · have := t4 y
      rw [if_neg h2, if_neg h1] at this
      rw [hkeep]; exact this

/-! ## C50 -/

/-- C50: redeeming burns a million vouchers per NFT and mints exactly that many. -/
theorem C50_redeem {c : Cfg} (hl : Limits c) {s s' : St} {who : Acct} {id q : Nat}
    (hs : step c s (.redeem who id q) = .ok s') :
    ∃ i k, s.sale id = some i ∧ (i.paying ∨ i.isOver) ∧ s.colls i.coll = some k ∧
      s'.ledger.bal i.voucher who + q * 1000000 = s.ledger.bal i.voucher who ∧
      s'.colls i.coll = some { k with
        issued := k.issued + q
        next := k.next + q } := by
  obtain ⟨i, k, L, h1, h2, h3, h4, h5, h6, h7, h8, rfl⟩ := redeem_ok hs
  rw [redeem_burns hl h6] at h4
  have := (Ledger.burn_ok h4).2.2.2.2 who
  rw [if_pos rfl] at this
  exact ⟨i, k, h2, h3, h5, this, upd_same _ _ _⟩

/-- C50: outstanding vouchers and redeemed NFTs account exactly for the collection maximum. -/
theorem C50_backed {c : Cfg} (hl : Limits c) {g s : St} (h : Reach c (Calm c) g s) {id : Nat} {i : Sale} {m : Nat}
    (hi : s.sale id = some i) (hm : Sells s i m) :
    s.ledger.iss i.voucher + 1000000 * redeemed id s.events = 1000000 * m := by
  obtain ⟨k, m', K⟩ := (reach_inv hl h).sales id i hi
  cases K.sells hm
  exact K.supply

/-- C50: nobody else can use up the collection: only redeeming vouchers of this sale mints from it. -/
theorem C50_only {c : Cfg} (hl : Limits c) {g s s' : St} (h : Reach c (Calm c) g s) {op : Op} (hG : Calm c s op)
    (hs : step c s op = .ok s') {id : Nat} {i : Sale} (hi : s.sale id = some i) {k : Coll}
    (hk : s.colls i.coll = some k) (hop : ∀ who q, op ≠ .redeem who id q) :
    ∃ n, s'.colls i.coll = some { k with issued := n } ∧ n ≤ k.issued := by
  have H := reach_inv hl h
  obtain ⟨k', m, K⟩ := H.sales id i hi
  have := K.coll; rw [hk] at this; cases this
  have same : s'.colls = s.colls → ∃ n, s'.colls i.coll = some { k with issued := n } ∧ n ≤ k.issued :=
    fun e => ⟨k.issued, by rw [e]; exact hk, le_refl _⟩
  cases op with
  | launch who pay coll price dur v =>
    exact (launch_quiet hs (hG.1 who rfl) (Nat.ne_of_lt K.lt)).colls _ _ hk K.owner K.pub
  | enable who j => obtain ⟨_, _, _, _, _, rfl⟩ := enable_ok hs; exact same rfl
  | participate who j x => obtain ⟨_, _, _, _, _, _, _, rfl⟩ := participate_ok hs; exact same rfl
  | distribute =>
    obtain ⟨j, rest, i', b, t, k', m', h1, h2, h3, h4, h5, h6⟩ := distribute_ok hs
    obtain ⟨k2, m2, K2⟩ := H.sales j i' h2
    have := K2.max
    have hm : m2 = m' := by
      have h7 := K2.coll; rw [h4] at h7; cases h7
      rw [h5] at this; cases this; rfl
    subst hm
    obtain ⟨r1, _⟩ := payLoop_inv (c := c) ⟨b, t, h3⟩ c.maxPay s t K2
    dsimp only at h6
    rcases h6 with ⟨_, rfl⟩ | ⟨_, rfl⟩
    · obtain ⟨L, hf, hL⟩ := finish_frame (s := (payLoop i' j m2 c.maxPay s t).1) (i := i') (id := j)
        (t := (payLoop i' j m2 c.maxPay s t).2.1)
      apply same
      rw [hf]; exact r1.colls
    · exact same r1.colls
  | claim who j =>
    obtain ⟨i', b, t, k', m', s2, n, h1, h2, h3, h4, h5, h6, h7⟩ := claim_ok hs
    obtain ⟨L, _, _, rfl⟩ := payVouchers_ok h6
    rcases h7 with ⟨_, rfl⟩ | ⟨_, rfl⟩
    · obtain ⟨L2, hf, hL⟩ := finish_frame (s := { dropKey s j who with ledger := L }) (i := i') (id := j)
        (t := satAdd t n)
      apply same
      rw [hf]; rfl
    · exact same rfl
  | redeem who j q =>
    have hj : j ≠ id := by rintro rfl; exact hop who q rfl
    obtain ⟨i', k', L, h1, h2, h3, h4, h5, h6, h7, h8, rfl⟩ := redeem_ok hs
    obtain ⟨k2, m2, K2⟩ := H.sales j i' h2
    have hne : i.coll ≠ i'.coll := by
      intro e
      have a := K2.coll
      rw [← e, hk] at a; cases a
      exact hj (c.vault_inj _ _ (K2.owner.symm.trans K.owner))
    exact ⟨k.issued, by simp only [upd_ne _ _ hne]; exact hk, le_refl _⟩
  | proxy who j call =>
    obtain ⟨i', s1, h1, h2, h3, h4, rfl⟩ := proxy_ok hs
    exact (run_allowed (c := c) (j := id) h4 h3).colls _ _ hk K.owner K.pub
  | force j => obtain ⟨_, _, _, _, rfl⟩ := force_ok hs; exact same rfl
  | block =>
    cases hs
    apply same
    have hcl : ∀ (l : List Nat) (t : St), (closeAll c t l).colls = t.colls := by
      intro l
      induction l with
      | nil => intro t; rfl
      | cons x xs ih =>
        intro t
        show (closeAll c (closeOne c t x) xs).colls = _
        rw [ih]
        unfold closeOne
        split
        · rfl
        · split
          · split
            · rfl
            · split
              · rfl
              · split
                · rfl
                · split
                  · rfl
                  · split <;> rfl
          · rfl
    exact hcl _ _
  | act who call =>
    exact (run_quiet hs (hG.1 who rfl id) (fun a src x e => by subst e; exact hG.2 src rfl id)).colls _ _ hk
      K.owner K.pub

/-! ## C94 -/

/-- C94: the sales being paid out are exactly the ones in the payout queue, so the queue is never blocked. -/
theorem C94_queue {c : Cfg} (hl : Limits c) {g s : St} (h : Reach c (Calm c) g s) {id : Nat} :
    id ∈ s.queue ↔ ∃ i, s.sale id = some i ∧ i.paying := by
  have H := reach_inv hl h
  constructor
  · intro hq
    by_cases hlt : s.next ≤ id
    · exact absurd hq (H.blank id hlt).2.2.2.2
    · cases hs : s.sale id with
      | none =>
        exact absurd hs ((reach_ids h id).mpr (by omega))
      | some i =>
        refine ⟨i, rfl, ?_⟩
        obtain ⟨k, m, K⟩ := H.sales id i hs
        have hp := K.phase
        cases hst : i.status with
        | distributing b t => exact ⟨b, t, hst⟩
        | pending b => simp only [Phase, hst] at hp; exact absurd hq hp.2.2.2
        | enabled b => simp only [Phase, hst] at hp; exact absurd hq hp.2.2
        | ended b => simp only [Phase, hst] at hp; exact absurd hq hp.2
        | failed b => simp only [Phase, hst] at hp; exact absurd hq hp.2.2
  · rintro ⟨i, hi, b, t, hst⟩
    obtain ⟨k, m, K⟩ := H.sales id i hi
    have hp := K.phase
    simp only [Phase, hst] at hp
    exact hp.2.2

/-- C94: as long as a sale is being paid out, the next payout call succeeds, and handles the next
contributors in line; with the last of them the sale is over and leaves the queue. -/
theorem C94_progress {c : Cfg} (hl : Limits c) {g s : St} (h : Reach c (Calm c) g s) {id : Nat} {rest : List Nat}
    (hq : s.queue = id :: rest) :
    ∃ s' i j, step c s .distribute = .ok s' ∧ s.sale id = some i ∧ s'.sale id = some j ∧
      s'.keys id = (s.keys id).drop c.maxPay ∧
      (s'.keys id = [] → j.isOver ∧ s'.queue = rest) ∧
      (s'.keys id ≠ [] → j.paying ∧ s'.queue = s.queue) := by
  obtain ⟨i, hi, b, t, hst⟩ := (C94_queue hl h (id := id)).mp (by rw [hq]; exact List.mem_cons_self ..)
  obtain ⟨k, m, K⟩ := (reach_inv hl h).sales id i hi
  obtain ⟨r1, r2, r3, r4, r5, r6⟩ := payLoop_inv (c := c) ⟨b, t, hst⟩ c.maxPay s t K
  obtain ⟨f1, f2, f3, f4, f5⟩ := payLoop_frame (i := i) (id := id) (m := m) c.maxPay s t
  have hok : ∃ s', step c s .distribute = .ok s' := by
    show ∃ s', distribute c s = .ok s'
    unfold distribute
    simp only [hq, List.head?_cons, hi, hst, okOr, K.coll, K.max, bind, Except.bind, pure, Except.pure]
    split
    · exact ⟨_, rfl⟩
    · exact ⟨_, rfl⟩
  obtain ⟨s', hs⟩ := hok
  obtain ⟨id', rest', i', b', t', k', m', e1, e2, e3, e4, e5, e6⟩ := distribute_ok hs
  rw [hq] at e1; cases e1
  rw [hi] at e2; cases e2
  rw [hst] at e3; cases e3
  rw [K.coll] at e4; cases e4
  rw [K.max] at e5; cases e5
  dsimp only at e6
  rcases e6 with ⟨hd, rfl⟩ | ⟨hd, rfl⟩
  · have hnil : (payLoop i id m c.maxPay s t).1.keys id = [] := by
      rcases hd with hd | hd
      · exact r4 hd
      · exact hd
    refine ⟨_, i, _, hs, hi, upd_same _ _ _, r3, fun _ => ⟨⟨_, rfl⟩, rfl⟩, fun hne => absurd hnil hne⟩
  · refine ⟨_, i, _, hs, hi, upd_same _ _ _, r3, fun hnil => absurd (.inr hnil) hd, fun _ => ⟨⟨_, _, rfl⟩, ?_⟩⟩
    exact f5

/-! ## C51 -/

/-- C51 (partial: durations of at least one block): a sale that was opened in block `b` is not open any more in
block `b + duration`. -/
theorem C51_partial {c : Cfg} (hl : Limits c) {g s : St} (h : Reach c (Timed c) g s) {id : Nat} {i : Sale} {b : Nat}
    (hi : s.sale id = some i) (hb : i.status = .enabled b) : s.now < b + i.duration := by
  have := ((reach_time hl h).due id i b hi hb).1
  omega

/-- C51: in the block it is scheduled for, a sale is closed whatever happened before. -/
theorem C51_closes {c : Cfg} (hl : Limits c) {g s s' : St} (h : Reach c (Calm c) g s) {id : Nat}
    (hid : id ∈ s.ending (s.now + 1)) (hs : step c s .block = .ok s') :
    ∃ j, s'.sale id = some j ∧ ¬ j.isOpen := by
  have H := reach_inv hl h
  obtain ⟨i, hi, _⟩ := reach_listed h _ _ hid
  have hn : s.sale s.next = none := (H.blank _ (le_refl _)).1
  obtain ⟨j, hj, _⟩ := (step_aged hs hn).1.1 id i hi
  refine ⟨j, hj, ?_⟩
  cases hs
  have H0 : Inv c { s with
      now := s.now + 1
      ending := upd s.ending (s.now + 1) [] } :=
    Inv.all H H.sound H.fresh rfl H.nodupQ (fun j => { Quiet.refl c j s with sale := rfl })
  unfold block at hj
  exact closeAll_closes _ _ H0 hid hj

/-- C51 is false for a duration of zero, which `initialize` accepts: once opened, such a sale stays open for ever. -/
theorem C51_stuck {c : Cfg} {G : St → Op → Prop} {g s s1 s2 : St} (h : Reach c G g s) {who : Acct} {id : Nat}
    {i : Sale} (hi : s.sale id = some i) (hd : i.duration = 0) (hG : G s (.enable who id))
    (hs : step c s (.enable who id) = .ok s1) (hr : Run c G s1 s2) : ∃ j, s2.sale id = some j ∧ j.isOpen := by
  have h1 : Reach c G g s1 := .step h hG hs
  have T1 : Stuck s1 id := by
    obtain ⟨i', b, e1, e2, e3, rfl⟩ := enable_ok hs
    rw [hi] at e1; cases e1
    refine ⟨⟨_, upd_same _ _ _, s.now, rfl⟩, fun b' hb' hm => ?_⟩
    have hb : s.now < b' := hb'
    have hm' : id ∈ upd s.ending (min (i.duration + s.now) (U32 - 1))
        (s.ending (min (i.duration + s.now) (U32 - 1)) ++ [id]) b' := hm
    have hne : b' ≠ min (i.duration + s.now) (U32 - 1) := by omega
    rw [upd_ne _ _ hne] at hm'
    obtain ⟨i', hi', h2⟩ := reach_listed h _ _ hm'
    rw [hi] at hi'; cases hi'
    rw [e2] at h2
    exact absurd h2 (by simp [stage])
  suffices Stuck s2 id from this.sale
  induction hr with
  | nil => exact T1
  | step hrun _ hst ih =>
    have hre := h1.run hrun
    refine ih.step ?_ hst
    by_contra hne
    exact absurd ((reach_ids hre _).mp hne) (lt_irrefl _)

/-! ## C95 -/

theorem redeemed_payLoop {i : Sale} {id m x : Nat} : ∀ (n : Nat) (s : St) (t : Nat),
    redeemed x (payLoop i id m n s t).1.events = redeemed x s.events
  | 0, s, t => rfl
  | n + 1, s, t => by
    unfold payLoop
    split
    · rfl
    · dsimp only
      split
      · exact redeemed_payLoop n _ _
      · rename_i s2 a h
        obtain ⟨L, rfl⟩ := payVouchers_frame h
        rw [redeemed_payLoop n]
        rfl

theorem redeemed_closeOne (c : Cfg) (s : St) (id x : Nat) :
    redeemed x (closeOne c s id).events = redeemed x s.events := by
  unfold closeOne
  split
  · rfl
  · split
    · split
      · rfl
      · split
        · rfl
        · split
          · rfl
          · split
            · rfl
            · split <;> rfl
    · rfl

theorem redeemed_closeAll (c : Cfg) (x : Nat) : ∀ (l : List Nat) (s : St),
    redeemed x (closeAll c s l).events = redeemed x s.events
  | [], _ => rfl
  | y :: ys, s => by
    show redeemed x (closeAll c (closeOne c s y) ys).events = _
    rw [redeemed_closeAll c x ys, redeemed_closeOne]

/-- Only redeeming counts as redeeming. -/
theorem redeemed_step {c : Cfg} {s s' : St} {op : Op} (h : step c s op = .ok s') {id : Nat}
    (hop : ∀ who q, op ≠ .redeem who id q) : redeemed id s'.events = redeemed id s.events := by
  cases op with
  | launch who pay coll price dur v =>
    obtain ⟨k, m, L, _, _, _, _, _, _, _, _, _, _, _, rfl⟩ := launch_ok h; rfl
  | enable who id => obtain ⟨i, b, h1, h2, h3, rfl⟩ := enable_ok h; rfl
  | participate who id x => obtain ⟨i, b, L, h0, h1, h2, h3, rfl⟩ := participate_ok h; rfl
  | distribute =>
    obtain ⟨x, rest, i, b, t, k, m, h1, h2, h3, h4, h5, h6⟩ := distribute_ok h
    have hp := redeemed_payLoop (i := i) (id := x) (m := m) (x := id) c.maxPay s t
    dsimp only at h6
    rcases h6 with ⟨_, rfl⟩ | ⟨_, rfl⟩
    · exact hp
    · exact hp
  | claim who x =>
    obtain ⟨i, b, t, k, m, s2, n, h1, h2, h3, h4, h5, h6, h7⟩ := claim_ok h
    obtain ⟨L, rfl⟩ := payVouchers_frame h6
    rcases h7 with ⟨_, rfl⟩ | ⟨_, rfl⟩ <;> rfl
  | redeem who x q =>
    obtain ⟨i, k, L, _, _, _, _, _, _, _, _, rfl⟩ := redeem_ok h
    have hne : x ≠ id := by rintro rfl; exact hop who q rfl
    show (if x = id then q else 0) + redeemed id s.events = _
    rw [if_neg hne, Nat.zero_add]
  | proxy who x call =>
    obtain ⟨i, s1, _, _, _, h4, rfl⟩ := proxy_ok h
    obtain ⟨L, is, cs, rfl, _, _⟩ := run_frame h4
    rfl
  | force x => obtain ⟨i, b, h1, h2, rfl⟩ := force_ok h; rfl
  | block => cases h; unfold block; rw [redeemed_closeAll]
  | act who call =>
    obtain ⟨L, is, cs, rfl, _, _⟩ := run_frame h
    rfl

/-- The collections of all sales can still mint what has not been redeemed. -/
def FreshInv (c : Cfg) (s : St) : Prop := ∀ id i k m, s.sale id = some i → s.colls i.coll = some k → k.max = some m →
  k.next = redeemed id s.events ∧ k.mintable = true ∧ m < c.maxTokens ∧ m < U32

theorem reach_fresh {c : Cfg} (hl : Limits c) {g s : St} (h : Reach c (Fresh c) g s) : FreshInv c s := by
  induction h with
  | init hg => intro id i k m hi; rw [hg.sale] at hi; cases hi
  | step hr hG hs ih =>
    rename_i s s' op
    have hrc : Reach c (Calm c) g s := hr.weaken fun _ _ h => h.1
    have H := reach_inv hl hrc
    have hn : s.sale s.next = none := (H.blank _ (le_refl _)).1
    intro id j k m hj hk hm
    cases hsi : s.sale id with
    | none =>
      cases op with
      | launch who pay coll price dur v =>
        have hfr := hG.2 who pay coll price dur v rfl
        obtain ⟨k0, m0, L, _, _, _, e5, _, e6, e7, _, _, _, _, rfl⟩ := launch_ok hs
        by_cases e : id = s.next
        · subst e
          simp only [upd_same] at hj; cases hj
          simp only [upd_same] at hk; cases hk
          obtain ⟨f1, f2, f3⟩ := hfr k0 e5
          obtain ⟨f4, f5⟩ := f3 m hm
          refine ⟨?_, f2, f4, f5⟩
          show k0.next = redeemed s.next s.events
          rw [f1, redeemed_nil (H.blank _ (le_refl _)).2.2.2.1]
        · simp only [upd_ne _ _ e] at hj
          rw [hsi] at hj; cases hj
      | _ =>
        exfalso
        have hid := (step_aged hs hn).1.2 id hsi
        have hnx := (step_aged hs hn).2.2 id
        have hlt : id < s'.next := (reach_ids (Reach.step hr hG hs) id).mp (by rw [hj]; simp)
        have h3 : ¬ id < s.next := fun h => (reach_ids hr id).mpr h hsi
        have hnext : s'.next = s.next := by
          first
            | (obtain ⟨_, _, _, _, _, rfl⟩ := enable_ok hs; rfl)
            | (obtain ⟨_, _, _, _, _, _, _, rfl⟩ := participate_ok hs; rfl)
            | (obtain ⟨x, rest, i, b, t, k, m, h1, h2, h3, h4, h5, h6⟩ := distribute_ok hs
               obtain ⟨_, f2, _⟩ := payLoop_frame (i := i) (id := x) (m := m) c.maxPay s t
               dsimp only at h6
               rcases h6 with ⟨_, rfl⟩ | ⟨_, rfl⟩ <;> exact f2)
            | (obtain ⟨i, b, t, k, m, s2, n, h1, h2, h3, h4, h5, h6, h7⟩ := claim_ok hs
               obtain ⟨L, rfl⟩ := payVouchers_frame h6
               rcases h7 with ⟨_, rfl⟩ | ⟨_, rfl⟩ <;> rfl)
            | (obtain ⟨_, _, _, _, _, _, _, _, _, _, _, rfl⟩ := redeem_ok hs; rfl)
            | (obtain ⟨_, _, _, _, _, h4, rfl⟩ := proxy_ok hs
               obtain ⟨_, _, _, rfl, _, _⟩ := run_frame h4; rfl)
            | (obtain ⟨_, _, _, _, rfl⟩ := force_ok hs; rfl)
            | (obtain ⟨_, _, _, rfl, _, _⟩ := run_frame hs; rfl)
            | (cases hs; unfold block; exact (closeAll_frame c _ _).1)
        omega
    | some i =>
      obtain ⟨j', hj', hlat⟩ := (step_aged hs hn).1.1 id i hsi
      rw [hj] at hj'; cases hj'
      rw [hlat.coll] at hk
      obtain ⟨k0, m0, K⟩ := H.sales id i hsi
      obtain ⟨a1, a2, a3, a4⟩ := ih id i k0 m0 hsi K.coll K.max
      by_cases hop : ∀ who q, op ≠ .redeem who id q
      · obtain ⟨n, h1, _⟩ := C50_only hl hrc hG.1 hs hsi K.coll hop
        rw [hk] at h1; cases h1
        have := K.max; rw [show k0.max = some m from hm] at this; cases this
        rw [redeemed_step hs hop]
        exact ⟨a1, a2, a3, a4⟩
      · push Not at hop
        obtain ⟨who, q, rfl⟩ := hop
        obtain ⟨i', k', L, e1, e2, e3, e4, e5, e6, e7, e8, rfl⟩ := redeem_ok hs
        rw [hsi] at e2; cases e2
        rw [K.coll] at e5; cases e5
        simp only [upd_same] at hk
        cases hk
        have := K.max; rw [show k0.max = some m from hm] at this; cases this
        refine ⟨?_, a2, a3, a4⟩
        show k0.next + q = (if id = id then q else 0) + redeemed id s.events
        rw [if_pos rfl, a1]; omega

/-- What redeeming needs of the collection. -/
theorem redeem_needs {c : Cfg} {s s' : St} {who : Acct} {id q : Nat} (h : step c s (.redeem who id q) = .ok s') :
    ∃ i k, s.sale id = some i ∧ s.colls i.coll = some k ∧ k.mintable = true ∧ k.issued + q < c.maxTokens := by
  have h' : redeem c s who id q = .ok s' := h
  unfold redeem nftMint at h'
  simp only [bind_ok, ensure_ok, okOr_ok, pure_ok] at h'
  obtain ⟨_, h0, i, h1, _, h2, L, h3, s2, ⟨_, g1, k, g2, _, g3, _, g4, _, g5, _, g6, _⟩, _⟩ := h'
  exact ⟨i, k, h1, g2, g3, g6⟩

/-- C95 (partial: sales of collections that never minted, are mintable, and whose maximum is below the size limit
for collections): whoever holds the vouchers can redeem them. -/
theorem C95_redeemable_partial {c : Cfg} (hl : Limits c) {g s : St} (h : Reach c (Fresh c) g s) {id : Nat} {i : Sale}
    (hi : s.sale id = some i) (hst : i.paying ∨ i.isOver) {who : Acct} {q : Nat} (h0 : 0 < q) (hq : q ≤ c.mintLimit)
    (hb : q * 1000000 ≤ s.ledger.bal i.voucher who) : ∃ s', step c s (.redeem who id q) = .ok s' := by
  have hrc : Reach c (Calm c) g s := h.weaken fun _ _ h => h.1
  have H := reach_inv hl hrc
  obtain ⟨k, m, K⟩ := H.sales id i hi
  obtain ⟨a1, a2, a3, a4⟩ := reach_fresh hl h id i k m hi K.coll K.max
  have hbi : s.ledger.bal i.voucher who ≤ s.ledger.iss i.voucher := (H.sound i.voucher).1.le who
  have hs := K.supply
  have hu : unit = 1000000 := rfl
  rw [hu] at hs
  have hm : redeemed id s.events + q ≤ m := by omega
  have hii := K.issued
  have hburn : ∃ L, s.ledger.burn i.voucher who (q * 1000000) = .ok L := by
    unfold Ledger.burn
    rw [if_pos hb]
    exact ⟨_, rfl⟩
  obtain ⟨L, hL⟩ := hburn
  have hb2 := redeem_burns hl hq
  rw [hu] at hb2
  have hm1 : ∃ s2, nftMint c { s with ledger := L } i.vault i.coll q = .ok s2 := by
    unfold nftMint
    have x1 : k.issued + q < c.maxTokens := by omega
    have x2 : k.next + q < U32 := by omega
    have x3 : k.next + q ≤ c.maxTokens := by omega
    have x4 : k.next + q ≤ k.max.getD (U32 - 1) := by rw [K.max, a1]; exact hm
    have x5 : k.owner = i.vault ∨ k.pub = true := .inl (by rw [K.vault]; exact K.owner)
    simp only [ensure_pos hq, okOr, K.coll, ensure_pos a2, ensure_pos h0, ensure_pos x5, ensure_pos x1, ensure_pos x2,
      ensure_pos x3, ensure_pos x4, bind, Except.bind, pure, Except.pure]
    exact ⟨_, rfl⟩
  obtain ⟨s2, hs2⟩ := hm1
  refine ⟨{ s2 with events := .redeemed id who q :: s2.events }, ?_⟩
  show redeem c s who id q = _
  unfold redeem
  rcases hst with ⟨b, t, hst⟩ | ⟨b, hst⟩ <;>
  simp only [ensure_pos h0, okOr, hi, hst, hu, hb2, hL, hs2, bind, Except.bind, pure, Except.pure]

/-! ## C96 -/

/-- C96: what a vault holds only ever becomes less when a sale closes or when vouchers are paid out. In particular
neither the administrator nor anybody else can take it. -/
theorem C96_vault {c : Cfg} {s s' : St} {op : Op} (hG : Calm c s op) (hs : step c s op = .ok s')
    (h1 : op ≠ .block) (h2 : op ≠ .distribute) (h3 : ∀ who id, op ≠ .claim who id) (a : AssetId) (id : Nat) :
    s.ledger.bal a (c.vault id) ≤ s'.ledger.bal a (c.vault id) := by
  cases op with
  | launch who pay coll price dur v =>
    obtain ⟨k, m, L, _, _, _, _, _, _, _, _, _, _, hL, rfl⟩ := launch_ok hs
    exact (Ledger.mint_mono hL a (c.vault id))
  | enable who x => obtain ⟨i, b, h1, h2, h3, rfl⟩ := enable_ok hs; exact le_refl _
  | participate who x n =>
    obtain ⟨i, b, L, h0, h1, h2, h3, rfl⟩ := participate_ok hs
    exact transfer_keeps h3 (hG.1 who rfl id) a
  | distribute => exact absurd rfl h2
  | claim who x => exact absurd rfl (h3 who x)
  | redeem who x q =>
    obtain ⟨i, k, L, _, _, _, hL, _, _, _, _, rfl⟩ := redeem_ok hs
    obtain ⟨_, _, _, t4, t5⟩ := Ledger.burn_ok hL
    have hw := hG.1 who rfl id
    show s.ledger.bal a (c.vault id) ≤ L.bal a (c.vault id)
    by_cases e : a = i.voucher
    · subst e
      have := t5 (c.vault id)
      rw [if_neg (Ne.symm hw)] at this
      omega
    · rw [t4 a e]
  | proxy who x call =>
    obtain ⟨i, s1, _, _, h3, h4, rfl⟩ := proxy_ok hs
    exact (run_allowed (c := c) (j := id) h4 h3).bal a
  | force x => obtain ⟨i, b, h1, h2, rfl⟩ := force_ok hs; exact le_refl _
  | block => exact absurd rfl h1
  | act who call =>
    exact (run_quiet hs (hG.1 who rfl id) (fun a src x e => by subst e; exact hG.2 src rfl id)).bal a

/-! ## C97 -/

/-- C97: from launch on, a sale's terms never change, it only moves forward through pending, open,
(distribution refused,) paying, ended, and once it is closed the funds raised stay as they are. -/
theorem C97_life {c : Cfg} {G : St → Op → Prop} {g s s' : St} (h : Reach c G g s) (hr : Run c G s s') {id : Nat}
    {i : Sale} (hi : s.sale id = some i) : ∃ j, s'.sale id = some j ∧ Later i j := by
  induction hr with
  | nil => exact ⟨i, hi, Later.refl i⟩
  | step hrun hG hs ih =>
    rename_i s1 s2 op
    obtain ⟨j, hj, hl⟩ := ih
    have hreach := h.run hrun
    have hn : s1.sale s1.next = none := by
      by_contra hne
      exact absurd ((reach_ids hreach _).mp hne) (lt_irrefl _)
    obtain ⟨k, hk, hl2⟩ := (step_aged hs hn).1.1 id j hj
    exact ⟨k, hk, hl.trans hl2⟩

/-- C97: only the administrator of a sale can open it, and only while it is pending. -/
theorem C97_open {c : Cfg} {s s' : St} {op : Op} (hs : step c s op = .ok s') {id : Nat} {i j : Sale}
    (hi : s.sale id = some i) (hj : s'.sale id = some j) (h0 : ¬ i.isOpen) (h1 : j.isOpen) :
    op = .enable i.admin id ∧ ∃ b, i.status = .pending b := by
  have same : s'.sale = s.sale → op = .enable i.admin id ∧ ∃ b, i.status = .pending b := by
    intro e; rw [e, hi] at hj; cases hj; exact absurd h1 h0
  have one : ∀ {x : Nat} {y : Sale}, s'.sale = upd s.sale x (some y) → ¬ y.isOpen →
      op = .enable i.admin id ∧ ∃ b, i.status = .pending b := by
    intro x y e hy
    rw [e] at hj
    by_cases ex : id = x
    · subst ex; rw [upd_same] at hj; cases hj; exact absurd h1 hy
    · rw [upd_ne _ _ ex, hi] at hj; cases hj; exact absurd h1 h0
  cases op with
  | launch who pay coll price dur v =>
    obtain ⟨k, m, L, _, _, _, _, _, _, _, _, _, _, _, rfl⟩ := launch_ok hs
    exact one rfl (by rintro ⟨b, hb⟩; cases hb)
  | enable who x =>
    obtain ⟨i', b, e1, e2, e3, rfl⟩ := enable_ok hs
    by_cases ex : id = x
    · subst ex
      rw [hi] at e1; cases e1
      exact ⟨by rw [e3], b, e2⟩
    · simp only [upd_ne _ _ ex] at hj
      rw [hi] at hj; cases hj; exact absurd h1 h0
  | participate who x n =>
    obtain ⟨i', b, L, _, e1, e2, e3, rfl⟩ := participate_ok hs
    by_cases ex : id = x
    · subst ex
      rw [hi] at e1; cases e1
      exact absurd ⟨b, e2⟩ h0
    · simp only [upd_ne _ _ ex] at hj
      rw [hi] at hj; cases hj; exact absurd h1 h0
  | distribute =>
    obtain ⟨x, rest, i', b, t, k, m, e1, e2, e3, e4, e5, e6⟩ := distribute_ok hs
    obtain ⟨f1, _⟩ := payLoop_frame (i := i') (id := x) (m := m) c.maxPay s t
    dsimp only at e6
    rcases e6 with ⟨_, rfl⟩ | ⟨_, rfl⟩
    · refine one (x := x) (y := { i' with status := .ended (payLoop i' x m c.maxPay s t).1.now }) ?_
        (by rintro ⟨b, hb⟩; cases hb)
      rw [← f1]; rfl
    · refine one (x := x) (y := { i' with status := .distributing s.now (payLoop i' x m c.maxPay s t).2.1 }) ?_
        (by rintro ⟨b, hb⟩; cases hb)
      rw [← f1]
  | claim who x =>
    obtain ⟨i', b, t, k, m, s2, n, e1, e2, e3, e4, e5, e6, e7⟩ := claim_ok hs
    obtain ⟨L, rfl⟩ := payVouchers_frame e6
    rcases e7 with ⟨_, rfl⟩ | ⟨_, rfl⟩
    · exact one (x := x) (y := { i' with status := .ended s.now }) rfl (by rintro ⟨b, hb⟩; cases hb)
    · exact one (x := x) (y := { i' with status := .distributing s.now (satAdd t n) }) rfl (by rintro ⟨b, hb⟩; cases hb)
  | redeem who x q =>
    obtain ⟨i', k, L, _, _, _, _, _, _, _, _, rfl⟩ := redeem_ok hs
    exact same rfl
  | proxy who x call =>
    obtain ⟨i', s1, _, _, _, h4, rfl⟩ := proxy_ok hs
    obtain ⟨L, is, cs, rfl, _, _⟩ := run_frame h4
    exact same rfl
  | force x =>
    obtain ⟨i', b, e1, e2, rfl⟩ := force_ok hs
    refine one (x := x) (y := { i' with status := if i'.raised = 0 then .ended s.now else .distributing s.now 0 }) rfl ?_
    rintro ⟨b, hb⟩
    dsimp only at hb
    split at hb <;> cases hb
  | block =>
    cases hs
    exfalso
    have key : ∀ (l : List Nat) (t : St), (∀ y, t.sale id = some y → ¬ y.isOpen) →
        ∀ y, (closeAll c t l).sale id = some y → ¬ y.isOpen := by
      intro l
      induction l with
      | nil => intro t h; exact h
      | cons x xs ih =>
        intro t h
        apply ih
        intro y hy
        obtain ⟨_, _, _, e | ⟨i', st, g1, g2, g3, e⟩⟩ := closeOne_frame c t x
        · rw [e] at hy; exact h y hy
        · rw [e] at hy
          by_cases ex : id = x
          · subst ex; rw [upd_same] at hy; cases hy
            rintro ⟨b, hb⟩
            dsimp only at hb
            rw [hb] at g3
            exact absurd g3 (by simp [stage])
          · rw [upd_ne _ _ ex] at hy; exact h y hy
    refine key (s.ending (s.now + 1)) _ ?_ j hj h1
    intro y hy
    have : s.sale id = some y := hy
    rw [hi] at this; cases this
    exact h0
  | act who call =>
    obtain ⟨L, is, cs, rfl, _, _⟩ := run_frame hs
    exact same rfl

end Verif.Crowdsale
