import Verif.Crowdsale.Step

/-!
# Paying vouchers, redeeming, closing
-/

namespace Verif.Crowdsale

theorem filter_ne_self {l : List Acct} {w : Acct} (h : w ∉ l) : l.filter (· ≠ w) = l := by
  apply List.filter_eq_self.mpr
  intro x hx
  simp only [ne_eq, decide_not, Bool.not_eq_eq_eq_not, Bool.not_true, decide_eq_false_iff_not]
  rintro rfl; exact h hx

theorem sum_filter {f : Acct → Nat} {w : Acct} : ∀ {l : List Acct}, l.Nodup → w ∈ l →
    (l.map f).sum = f w + ((l.filter (· ≠ w)).map f).sum
  | [], _, h => by cases h
  | a :: l, hn, hw => by
    obtain ⟨h1, h2⟩ := List.nodup_cons.mp hn
    by_cases e : a = w
    · subst e
      have ef : (a :: l).filter (· ≠ a) = l.filter (· ≠ a) := by simp
      rw [ef, filter_ne_self h1]
      simp only [List.map_cons, List.sum_cons]
    · have hw' : w ∈ l := by
        rcases List.mem_cons.mp hw with h | h
        · exact absurd h.symm e
        · exact h
      have ih := sum_filter (f := f) h2 hw'
      have ef : (a :: l).filter (· ≠ w) = a :: l.filter (· ≠ w) := by simp [e]
      rw [ef]
      simp only [List.map_cons, List.sum_cons, ih]
      omega

theorem mem_filter_ne {l : List Acct} {w x : Acct} : x ∈ l.filter (· ≠ w) ↔ x ∈ l ∧ x ≠ w := by
  simp [List.mem_filter]

/-- The log after a payment. -/
theorem got_claimed (id : Nat) (who w : Acct) (x : Nat) (es : List Ev) :
    got id w (.claimed id who x :: es) = if w = who then x :: got id w es else got id w es := by
  simp only [got]
  by_cases e : w = who
  · subst e; simp
  · rw [if_neg (by rintro ⟨_, h⟩; exact e h.symm), if_neg e]

/-- What changes while contributors of sale `id` are paid. -/
structure Paid (c : Cfg) (id : Nat) (s s' : St) : Prop where
  sale : s'.sale = s.sale
  queue : s'.queue = s.queue
  next : s'.next = s.next
  now : s'.now = s.now
  issuer : s'.issuer = s.issuer
  colls : s'.colls = s.colls
  ending : s'.ending = s.ending
  iss : s'.ledger.iss = s.ledger.iss
  sound : s.ledger.Sound → s'.ledger.Sound
  others : ∀ j, j ≠ id → Quiet c j s s'

theorem Paid.refl (c : Cfg) (id : Nat) (s : St) : Paid c id s s where
  sale := rfl
  queue := rfl
  next := rfl
  now := rfl
  issuer := rfl
  colls := rfl
  ending := rfl
  iss := rfl
  sound h := h
  others j _ := Quiet.refl c j s

theorem Paid.trans {c : Cfg} {id : Nat} {s s1 s2 : St} (h : Paid c id s s1) (g : Paid c id s1 s2) : Paid c id s s2 where
  sale := g.sale.trans h.sale
  queue := g.queue.trans h.queue
  next := g.next.trans h.next
  now := g.now.trans h.now
  issuer := g.issuer.trans h.issuer
  colls := g.colls.trans h.colls
  ending := g.ending.trans h.ending
  iss := g.iss.trans h.iss
  sound x := g.sound (h.sound x)
  others j hj := (h.others j hj).trans (g.others j hj)

/-- One contributor is paid. -/
theorem pay_one {c : Cfg} {s s2 : St} {id : Nat} {i : Sale} {k : Coll} {m : Nat} {w : Acct} {n : Nat}
    (K : SaleInv c s id i k m) (hd : i.paying) (hw : w ∈ s.keys id)
    (h : payVouchers (dropKey s id w) i w (s.contrib id w) m = .ok (s2, n)) :
    n = share i.price i.raised m (s.contrib id w) ∧
    s2.keys id = (s.keys id).filter (· ≠ w) ∧ s2.contrib = upd s.contrib id (upd (s.contrib id) w 0) ∧
    s2.events = s.events ∧
    Paid c id s { s2 with events := .claimed id w n :: s2.events } ∧
    SaleInv c { s2 with events := .claimed id w n :: s2.events } id i k m ∧
    (i.raised * unit < U128 → ∀ y, y ≠ c.vault id →
      s2.ledger.bal i.voucher y = s.ledger.bal i.voucher y + (if y = w then n else 0)) ∧
    (∀ a y, a ≠ i.voucher → s2.ledger.bal a y = s.ledger.bal a y) := by
  obtain ⟨L, h1, h2, rfl⟩ := payVouchers_ok h
  obtain ⟨c1, c2, c3⟩ := K.inKeys w hw
  have hx : s.contrib id w ≤ i.raised := by rw [c1]; exact K.total.le w
  rw [rewards_eq K.price K.raisedLt hx K.fits] at h1
  cases h1
  have hled : (dropKey s id w).ledger = s.ledger := rfl
  rw [hled] at h2
  obtain ⟨t1, t2, t3, t4⟩ := Ledger.transfer_ok h2
  have hwv := K.human w hw
  rw [K.vault] at t1 t4
  obtain ⟨b, t, hst⟩ := hd
  have hp := K.phase
  simp only [Phase, hst] at hp
  obtain ⟨p1, p2, p3⟩ := hp
  have hsum := sum_filter (f := fun x => share i.price i.raised m (s.contrib id x)) K.nodup hw
  have hmin : i.raised * unit < U128 → min (s.ledger.bal i.voucher (c.vault id))
      (share i.price i.raised m (s.contrib id w)) = share i.price i.raised m (s.contrib id w) := by
    intro hr
    have := p2 hr
    unfold owed at this
    exact min_eq_right (by omega)
  have hkeys : (upd s.keys id ((s.keys id).filter (· ≠ w))) id = (s.keys id).filter (· ≠ w) := upd_same _ _ _
  refine ⟨rfl, hkeys, rfl, rfl, ?_, ?_, ?_, ?_⟩
  · exact {
      sale := rfl
      queue := rfl
      next := rfl
      now := rfl
      issuer := rfl
      colls := rfl
      ending := rfl
      iss := t2
      sound := Ledger.transfer_sound h2
      others := fun j hj => Quiet.of rfl (upd_ne _ _ hj) (upd_ne _ _ hj)
        (transfer_keeps h2 (by rw [K.vault]; exact fun e => hj (c.vault_inj _ _ e).symm))
        (fun a _ => by show L.iss a = _; rw [t2]) rfl rfl [_] rfl
        (by intro e he; simp at he; subst he; exact Ne.symm hj) Iff.rfl rfl }
  · have hput : ∀ x es, put id x (.claimed id w (share i.price i.raised m (s.contrib id w)) :: es) = put id x es :=
      fun _ _ => rfl
    have hc : ∀ x, x ≠ w → (upd s.contrib id (upd (s.contrib id) w 0)) id x = s.contrib id x := by
      intro x hx; rw [upd_same, upd_ne _ _ hx]
    refine {
      vault := K.vault
      admin := K.admin
      lt := K.lt
      price := K.price
      issuer := K.issuer
      pay := K.pay
      coll := K.coll
      owner := K.owner
      pub := K.pub
      max := K.max
      fits := K.fits
      issued := K.issued
      supply := ?_
      nodup := ?_
      human := ?_
      inKeys := ?_
      outKeys := ?_
      total := K.total
      raisedLt := K.raisedLt
      phase := ?_ }
    · show L.iss i.voucher + unit * redeemed id s.events = unit * m
      rw [t2]; exact K.supply
    · show ((upd s.keys id ((s.keys id).filter (· ≠ w))) id).Nodup
      rw [hkeys]; exact K.nodup.filter _
    · intro x hx'
      change x ∈ (upd s.keys id ((s.keys id).filter (· ≠ w))) id at hx'
      rw [hkeys, mem_filter_ne] at hx'
      exact K.human x hx'.1
    · intro x hx'
      change x ∈ (upd s.keys id ((s.keys id).filter (· ≠ w))) id at hx'
      rw [hkeys, mem_filter_ne] at hx'
      show (upd s.contrib id (upd (s.contrib id) w 0)) id x = put id x s.events ∧ 0 < put id x s.events ∧
        got id x (.claimed id w _ :: s.events) = []
      rw [hc x hx'.2, got_claimed, if_neg hx'.2]
      exact K.inKeys x hx'.1
    · intro x hx'
      change x ∉ (upd s.keys id ((s.keys id).filter (· ≠ w))) id at hx'
      rw [hkeys, mem_filter_ne] at hx'
      show (upd s.contrib id (upd (s.contrib id) w 0)) id x = 0 ∧ ((put id x s.events = 0 ∧
        got id x (.claimed id w _ :: s.events) = []) ∨ ((i.paying ∨ i.isOver) ∧ 0 < put id x s.events ∧
          got id x (.claimed id w _ :: s.events) = [share i.price i.raised m (put id x s.events)]))
      by_cases e : x = w
      · subst e
        rw [got_claimed, if_pos rfl, upd_same, upd_same, c3, c1]
        exact ⟨rfl, .inr ⟨.inl ⟨b, t, hst⟩, c2, rfl⟩⟩
      · rw [hc x e, got_claimed, if_neg e]
        exact K.outKeys x (fun hk => hx' ⟨hk, e⟩)
    · show (match i.status with
        | .pending _ => _ | .enabled _ => _ | .failed _ => _ | .distributing _ _ => _ | .ended _ => _)
      simp only [hst]
      refine ⟨p1, fun hr => ?_, p3⟩
      have h5 := p2 hr
      have h6 := t4 (c.vault id)
      rw [hmin hr, if_pos rfl, if_neg (fun e => hwv e.symm)] at h6
      have e : (((upd s.keys id ((s.keys id).filter (· ≠ w))) id).map (fun x => share i.price i.raised m
          ((upd s.contrib id (upd (s.contrib id) w 0)) id x))).sum =
          (((s.keys id).filter (· ≠ w)).map (fun x => share i.price i.raised m (s.contrib id x))).sum := by
        rw [hkeys]
        refine congrArg List.sum (List.map_congr_left ?_)
        intro x hx'
        rw [hc x (mem_filter_ne.mp hx').2]
      show (((upd s.keys id ((s.keys id).filter (· ≠ w))) id).map (fun x => share i.price i.raised m
          ((upd s.contrib id (upd (s.contrib id) w 0)) id x))).sum ≤ L.bal i.voucher (c.vault id)
      rw [e]
      unfold owed at h5
      omega
  · intro hr y hy
    have h6 := t4 y
    rw [hmin hr, if_neg hy] at h6
    exact h6
  · intro a y ha
    show L.bal a y = _
    rw [t3 a ha]

/-- The payout loop. -/
theorem payLoop_inv {c : Cfg} {id : Nat} {i : Sale} {k : Coll} {m : Nat} (hd : i.paying) :
    ∀ (n : Nat) (s : St) (t : Nat), SaleInv c s id i k m →
      Paid c id s (payLoop i id m n s t).1 ∧ SaleInv c (payLoop i id m n s t).1 id i k m ∧
      (payLoop i id m n s t).1.keys id = (s.keys id).drop n ∧
      ((payLoop i id m n s t).2.2 = true → (payLoop i id m n s t).1.keys id = []) ∧
      (i.raised * unit < U128 → ∀ y, y ≠ c.vault id → (payLoop i id m n s t).1.ledger.bal i.voucher y =
        s.ledger.bal i.voucher y +
          (if y ∈ (s.keys id).take n then share i.price i.raised m (s.contrib id y) else 0)) ∧
      (∀ a y, a ≠ i.voucher → (payLoop i id m n s t).1.ledger.bal a y = s.ledger.bal a y)
  | 0, s, t, K => by
    refine ⟨Paid.refl c id s, K, by simp [payLoop], by simp [payLoop], by simp [payLoop], by simp [payLoop]⟩
  | n + 1, s, t, K => by
    unfold payLoop
    cases hk : s.keys id with
    | nil => exact ⟨Paid.refl c id s, K, by simp [hk], fun _ => hk, by simp, by simp⟩
    | cons w ks =>
      have hw : w ∈ s.keys id := by rw [hk]; exact List.mem_cons_self ..
      obtain ⟨c1, c2, c3⟩ := K.inKeys w hw
      have hx : s.contrib id w ≤ i.raised := by rw [c1]; exact K.total.le w
      obtain ⟨s2, h2⟩ := payVouchers_succeeds (s := dropKey s id w) (who := w)
        (rewards_eq K.price K.raisedLt hx K.fits)
      obtain ⟨_, g2, g3, g4, g5, g6, g7, g8⟩ := pay_one K hd hw h2
      simp only [h2]
      obtain ⟨r1, r2, r3, r4, r5, r6⟩ := payLoop_inv hd n _ (satAdd t (share i.price i.raised m (s.contrib id w))) g6
      have hnd := K.nodup
      rw [hk] at hnd
      obtain ⟨n1, n2⟩ := List.nodup_cons.mp hnd
      have ek : s2.keys id = ks := by
        rw [g2, hk]
        have : (w :: ks).filter (· ≠ w) = ks.filter (· ≠ w) := by simp
        rw [this, filter_ne_self n1]
      refine ⟨g5.trans r1, r2, ?_, r4, ?_, ?_⟩
      · rw [r3]; show (s2.keys id).drop n = _; rw [ek]; rfl
      · intro hr y hy
        rw [r5 hr y hy]
        show s2.ledger.bal i.voucher y + (if y ∈ (s2.keys id).take n then share i.price i.raised m (s2.contrib id y)
          else 0) = _
        rw [g7 hr y hy, ek, g3, upd_same]
        by_cases e : y = w
        · subst e
          have : y ∉ ks.take n := fun h => n1 (List.mem_of_mem_take h)
          rw [if_pos rfl, if_neg this, if_pos (by simp)]; rfl
        · rw [if_neg e, upd_ne _ _ e]
          have : (y ∈ (w :: ks).take (n + 1)) ↔ y ∈ ks.take n := by simp [e]
          simp only [this]
          rfl
      · intro a y ha
        rw [r6 a y ha]
        exact g8 a y ha

/-- All contributors are paid. -/
theorem finish_frame {s : St} {i : Sale} {id t : Nat} :
    ∃ L, finish s i id t = { s with
      ledger := L
      sale := upd s.sale id (some { i with status := .ended s.now })
      events := .complete id t :: s.events } ∧
      s.ledger.transfer i.voucher i.vault i.admin (s.ledger.bal i.voucher i.vault) = .ok L := by
  have ht : ∃ L, s.ledger.transfer i.voucher i.vault i.admin (s.ledger.bal i.voucher i.vault) = .ok L := by
    unfold Ledger.transfer
    rw [if_pos (le_refl _)]
    exact ⟨_, rfl⟩
  obtain ⟨L, hL⟩ := ht
  refine ⟨L, ?_, hL⟩
  unfold finish
  simp only [hL]
  by_cases hb : 0 < s.ledger.bal i.voucher i.vault
  · rw [if_pos hb]
  · rw [if_neg hb]
    have h0 : s.ledger.bal i.voucher i.vault = 0 := by omega
    have : L = s.ledger := by
      unfold Ledger.transfer at hL
      rw [h0, if_pos (Nat.zero_le _)] at hL
      cases hL
      have e : ∀ f : Acct → Nat, Ledger.move f i.vault i.admin 0 = f := by
        intro f
        funext y
        have := Ledger.move_spec (f := f) (s := i.vault) (d := i.admin) (x := 0) (Nat.zero_le _) y
        simpa using this
      have e2 : upd s.ledger.bal i.voucher (s.ledger.bal i.voucher) = s.ledger.bal := by
        funext a; rw [upd_apply]; split
        · rename_i h; rw [h]
        · rfl
      rw [e, e2]
    rw [this]

/-- Ending a sale whose contributors are all paid; the queue no longer lists it. -/
theorem finish_inv {c : Cfg} {s s' : St} {id : Nat} {i : Sale} {k : Coll} {m : Nat} {L : Ledger} {es : List Ev}
    {q : List Nat} (K : SaleInv c s id i k m) (hk : s.keys id = [])
    {b x : Nat} (hL : s.ledger.transfer i.voucher i.vault i.admin x = .ok L) (hq : id ∉ q)
    (hp : ∀ w, put id w es = put id w s.events) (hg : ∀ w, got id w es = got id w s.events)
    (hr : redeemed id es = redeemed id s.events)
    (e1 : s'.ledger = L) (e2 : s'.issuer = s.issuer) (e3 : s'.colls = s.colls) (e4 : s'.next = s.next)
    (e5 : s'.keys = s.keys) (e6 : s'.contrib = s.contrib) (e7 : s'.queue = q) (e8 : s'.events = es) :
    SaleInv c s' id { i with status := .ended b } k m := by
  have t2 := transfer_iss hL
  refine {
    vault := K.vault
    admin := K.admin
    lt := by rw [e4]; exact K.lt
    price := K.price
    issuer := by rw [e2]; exact K.issuer
    pay := K.pay
    coll := by rw [e3]; exact K.coll
    owner := K.owner
    pub := K.pub
    max := K.max
    fits := K.fits
    issued := K.issued
    supply := by rw [e1, e8, hr]; show L.iss i.voucher + _ = _; rw [t2]; exact K.supply
    nodup := by rw [e5]; exact K.nodup
    human := by rw [e5]; exact K.human
    inKeys := by rw [e5, hk]; intro w hw; cases hw
    outKeys := ?_
    total := ?_
    raisedLt := K.raisedLt
    phase := ?_ }
  · intro w hw
    rw [e5] at hw
    rw [e6, e8, hp, hg]
    obtain ⟨o1, o2 | ⟨_, o2⟩⟩ := K.outKeys w hw
    · exact ⟨o1, .inl o2⟩
    · exact ⟨o1, .inr ⟨.inr ⟨b, rfl⟩, o2⟩⟩
  · rw [e8]
    have e : (fun w => put id w es) = (fun w => put id w s.events) := by funext w; exact hp w
    rw [e]; exact K.total
  · show s'.keys id = [] ∧ id ∉ s'.queue
    rw [e5, e7]; exact ⟨hk, hq⟩

/-- Paying on: only the running total changes. -/
theorem SaleInv.progress {c : Cfg} {s : St} {id : Nat} {i : Sale} {k : Coll} {m : Nat} (K : SaleInv c s id i k m)
    (hd : i.paying) (b t : Nat) : SaleInv c s id { i with status := .distributing b t } k m := by
  obtain ⟨b0, t0, hst⟩ := hd
  refine { K with
    outKeys := fun w hw => ?_
    phase := ?_ }
  · obtain ⟨o1, o2 | ⟨_, o2⟩⟩ := K.outKeys w hw
    · exact ⟨o1, .inl o2⟩
    · exact ⟨o1, .inr ⟨.inl ⟨b, t, rfl⟩, o2⟩⟩
  · have hp := K.phase
    simp only [Phase, hst] at hp
    exact hp

theorem distribute_inv {c : Cfg} {s s' : St} (H : Inv c s) (h : distribute c s = .ok s') : Inv c s' := by
  obtain ⟨id, rest, i, b, t, k, m, h1, h2, h3, h4, h5, h6⟩ := distribute_ok h
  obtain ⟨k', m', K⟩ := H.sales id i h2
  have e1 : k' = k := by have := K.coll; rw [h4] at this; cases this; rfl
  subst e1
  have e2 : m' = m := by have := K.max; rw [h5] at this; cases this; rfl
  subst e2
  have hd : i.paying := ⟨b, t, h3⟩
  obtain ⟨r1, r2, r3, r4, r5, r6⟩ := payLoop_inv (c := c) hd c.maxPay s t K
  dsimp only at h6
  generalize payLoop i id m' c.maxPay s t = r at *
  obtain ⟨s1, t1, fin⟩ := r
  dsimp only at r1 r2 r3 r4 r5 r6 h6
  have hnd := H.nodupQ
  rw [h1] at hnd
  obtain ⟨n1, n2⟩ := List.nodup_cons.mp hnd
  rcases h6 with ⟨h6, rfl⟩ | ⟨h6, rfl⟩
  · have hk : s1.keys id = [] := by
      rcases h6 with h6 | h6
      · exact r4 h6
      · exact h6
    obtain ⟨L, hf, hL⟩ := finish_frame (s := s1) (i := i) (id := id) (t := t1)
    refine Inv.target (id := id) H ?_ ?_ ?_ K.lt ?_ ?_ ?_
    · rw [hf]; exact Ledger.transfer_sound hL (r1.sound H.sound)
    · intro a ha
      rw [hf] at ha ⊢
      show L.iss a = 0
      rw [transfer_iss hL, r1.iss]
      apply H.fresh
      rw [← r1.issuer]; exact ha
    · rw [hf]; exact r1.next
    · exact n2
    · intro j hj
      refine (r1.others j hj).trans ?_
      rw [hf]
      refine Quiet.of (upd_ne _ _ hj) rfl rfl
        (transfer_keeps hL (by rw [K.vault]; exact fun e => hj (c.vault_inj _ _ e).symm))
        (fun a _ => by show L.iss a = _; rw [transfer_iss hL]) rfl rfl [_] rfl
        (by intro e he; simp at he; subst he; exact Ne.symm hj) ?_ rfl
      show j ∈ rest ↔ j ∈ s1.queue
      rw [r1.queue, h1]
      simp [hj]
    · intro i' hi'
      rw [hf] at hi'
      simp only [upd_same, Option.some.injEq] at hi'
      subst hi'
      exact ⟨k', m', finish_inv (es := .complete id t1 :: s1.events) r2 hk hL n1 (fun _ => rfl) (fun _ => rfl) rfl
        (by rw [hf]) (by rw [hf]) (by rw [hf]) (by rw [hf]) (by rw [hf]) (by rw [hf]) rfl (by rw [hf])⟩
  · refine Inv.target (id := id) H (r1.sound H.sound) ?_ r1.next K.lt (by show s1.queue.Nodup; rw [r1.queue]; exact H.nodupQ)
      ?_ ?_
    · intro a ha
      show s1.ledger.iss a = 0
      rw [r1.iss]
      apply H.fresh
      rw [← r1.issuer]; exact ha
    · intro j hj
      refine (r1.others j hj).trans ?_
      exact Quiet.of (upd_ne _ _ hj) rfl rfl (fun _ => le_refl _) (fun _ _ => rfl) rfl rfl [] rfl (by simp) Iff.rfl rfl
    · intro i' hi'
      simp only [upd_same, Option.some.injEq] at hi'
      subst hi'
      have := r2.progress hd s.now t1
      exact ⟨k', m', { this with phase := this.phase }⟩

theorem claim_inv {c : Cfg} {s s' : St} {who : Acct} {id : Nat} (H : Inv c s) (h : claim s who id = .ok s') :
    Inv c s' := by
  obtain ⟨i, b, t, k, m, s2, n, h1, h2, h3, h4, h5, h6, h7⟩ := claim_ok h
  obtain ⟨k', m', K⟩ := H.sales id i h1
  have e1 : k' = k := by have := K.coll; rw [h4] at this; cases this; rfl
  subst e1
  have e2 : m' = m := by have := K.max; rw [h5] at this; cases this; rfl
  subst e2
  have hd : i.paying := ⟨b, t, h2⟩
  obtain ⟨g1, g2, g3, g4, g5, g6, g7, g8⟩ := pay_one K hd h3 h6
  have hfr : ∀ a, s2.issuer a = none → s2.ledger.iss a = 0 := by
    intro a ha
    have e := g5.iss
    dsimp only at e
    rw [e]
    apply H.fresh
    have e' := g5.issuer
    dsimp only at e'
    rw [← e']; exact ha
  have hso : s2.ledger.Sound := g5.sound H.sound
  have hnx : s2.next = s.next := g5.next
  have hqu : s2.queue = s.queue := g5.queue
  rcases h7 with ⟨h7, rfl⟩ | ⟨h7, rfl⟩
  · obtain ⟨L, hf, hL⟩ := finish_frame (s := s2) (i := i) (id := id) (t := satAdd t n)
    rw [hf]
    refine Inv.target (id := id) H (Ledger.transfer_sound hL hso) ?_ hnx K.lt (H.nodupQ.filter _) ?_ ?_
    · intro a ha
      show L.iss a = 0
      rw [transfer_iss hL]
      exact hfr a ha
    · intro j hj
      have q2 : Quiet c j s s2 := { g5.others j hj with events := ⟨[], g4, by simp⟩ }
      refine q2.trans (Quiet.of (upd_ne _ _ hj) rfl rfl
        (transfer_keeps hL (by rw [K.vault]; exact fun e => hj (c.vault_inj _ _ e).symm))
        (fun a _ => by show L.iss a = _; rw [transfer_iss hL]) rfl rfl [.claimed id who n, .complete id (satAdd t n)] rfl
        (by intro e he; simp at he; rcases he with rfl | rfl <;> exact Ne.symm hj) ?_ rfl)
      · show j ∈ s.queue.filter (· ≠ id) ↔ j ∈ s2.queue
        rw [hqu, List.mem_filter]
        simp [hj]
    · intro i' hi'
      simp only [upd_same, Option.some.injEq] at hi'
      subst hi'
      refine ⟨k', m', finish_inv (es := .claimed id who n :: .complete id (satAdd t n) :: s2.events) g6 h7 hL
        (q := s.queue.filter (· ≠ id)) (by simp) (fun _ => rfl) (fun _ => rfl) rfl rfl rfl rfl rfl rfl rfl rfl rfl⟩
  · refine Inv.target (id := id) H hso hfr hnx K.lt (by show s2.queue.Nodup; rw [hqu]; exact H.nodupQ) ?_ ?_
    · intro j hj
      refine (g5.others j hj).trans ?_
      exact Quiet.of (upd_ne _ _ hj) rfl rfl (fun _ => le_refl _) (fun _ _ => rfl) rfl rfl [] rfl (by simp) Iff.rfl rfl
    · intro i' hi'
      simp only [upd_same, Option.some.injEq] at hi'
      subst hi'
      have := g6.progress hd s.now (satAdd t n)
      exact ⟨k', m', { this with phase := this.phase }⟩

end Verif.Crowdsale
