import Verif.Market.Money

/-! # Every operation keeps the invariants -/

namespace Verif.Market

theorem bundle_good {c : Cfg} {s : St} {t : Tokens} {m : Option Nat} {roy : List (Acct × Nat)}
    (h : bundle c s t m = .ok roy) : GoodRoy roy := by
  simp only [bundle, bind_ok, ensure_ok, pure_ok] at h
  obtain ⟨_, _, _, _, l, _, _, h, rfl⟩ := h
  exact h

/-- Exact effect of paying a price directly. -/
theorem pay_ok {L L' : Ledger} {a : AssetId} {src seller : Acct} {roy : List (Acct × Nat)} {amount : Nat}
    (h : Holds.splitTransfer L a src (payouts seller roy amount) = .ok L') (hg : GoodRoy roy) (ha : amount < U128)
    (hs : L.Sound) (hi : L.iss a + 8 < U128) :
    shares roy amount ≤ amount ∧ amount ≤ L.bal a src ∧ L'.iss = L.iss ∧ L'.Sound ∧ (∀ b, b ≠ a → L'.bal b = L.bal b) ∧
    ∀ y, L'.bal a y + (if y = src then amount else 0) =
      L.bal a y + (shareOf roy amount y + if y = seller then amount - shares roy amount else 0) := by
  simp only [Holds.splitTransfer, bind_ok, ensure_ok] at h
  obtain ⟨_, ht, h⟩ := h
  have hf := payouts_fit hg ha h hs hi
  obtain ⟨e1, e2⟩ := payouts_spec (seller := seller) hg ha hf
  obtain ⟨p1, p2, p3, p4⟩ := Holds.payAll_ok h
  refine ⟨hf, ?_, p1, p3 hs, p2, fun y => ?_⟩
  · unfold Holds.total at ht
    rw [e1, Nat.mod_eq_of_lt ha] at ht
    exact ht
  · rw [← e2 y, ← p4 y, e1]

/-- Exact effect of paying a price out of a hold. -/
theorem spendPay_ok {c : Cfg} {hs hs' : Holds.St} {a : AssetId} {w seller : Acct} {roy : List (Acct × Nat)} {amount : Nat}
    (h : Holds.spend c.holds hs c.pid w a (payouts seller roy amount) = .ok hs') (hg : GoodRoy roy) (ha : amount < U128)
    (hi : Holds.HI c.holds hs) (hb : hs.ledger.iss a + 8 < U128) :
    shares roy amount ≤ amount ∧ Holds.HI c.holds hs' ∧ amount ≤ Holds.holdOf (hs.holds a w) c.pid ∧
    hs'.ledger.iss = hs.ledger.iss ∧ (∀ b, b ≠ a → hs'.ledger.bal b = hs.ledger.bal b) ∧
    (∀ y, hs'.ledger.bal a y + (if y = c.holds.pot then amount else 0) =
      hs.ledger.bal a y + (shareOf roy amount y + if y = seller then amount - shares roy amount else 0)) ∧
    (∀ b y q, Holds.holdOf (hs'.holds b y) q + (if b = a ∧ y = w ∧ q = c.pid then amount else 0) =
      Holds.holdOf (hs.holds b y) q) := by
  have hf : shares roy amount ≤ amount := by
    have h' := h
    simp only [Holds.spend, Holds.splitTransfer, bind_ok, ensure_ok, pure_ok] at h'
    obtain ⟨l, _, L, ⟨_, _, hL⟩, _⟩ := h'
    exact payouts_fit hg ha hL hi.sound hb
  obtain ⟨e1, e2⟩ := payouts_spec (seller := seller) hg ha hf
  obtain ⟨p1, p2, p3, p4, p5, p6⟩ := Holds.spend_sum h hi (by rw [e1]; exact ha)
  rw [e1] at p2 p5 p6
  exact ⟨hf, p1, p2, p3, p4, fun y => by rw [← e2 y]; exact p5 y, p6⟩

/-- The invariants; `pend` are the listings the block hook has still to close. -/
structure Good (c : Cfg) (s : St) (pend : List Nat) : Prop where
  dur : 0 < c.defaultDur
  st : Struct s.listings s.sched s.now s.nextListing pend
  lk : Lk c s.nft s.sft s.listings s.nextListing (fun _ _ _ => 0)
  mi : Mi c s.hs s.listings s.bids s.offers s.tokenOffers s.assetOf s.nextOffer s.nextListing

theorem Good.genesis {c : Cfg} {s : St} (h : Genesis c s) : Good c s [] := by
  refine ⟨h.dur, ⟨?_, ?_, ?_, ?_, h.now⟩, ⟨.init h.nft, Sft.SI.genesis h.sft, ?_, ?_, ?_, ?_⟩,
    ⟨Holds.HI.genesis h.hs, h.iss, ?_, ?_, ?_, ?_, ?_, ?_⟩⟩
  · intro i l hl; rw [h.listings] at hl; cases hl
  · intro b i
    rw [h.sched]
    constructor
    · intro hx; exact (List.not_mem_nil hx).elim
    · rintro ⟨l, hl, _⟩; rw [h.listings] at hl; cases hl
  · intro b; rw [h.sched]; exact List.nodup_nil
  · intro i l hl; rw [h.listings] at hl; cases hl
  · intro id n i hi
    exact absurd hi (by rw [h.nft.locks]; simp)
  · intro i l _ _ hl; rw [h.listings] at hl; cases hl
  · intro id n a
    exact ⟨0, TotalIs.zero.congr (fun i => by rw [h.listings]; rfl), Nat.zero_le _⟩
  · intro i l _ _ hl; rw [h.listings] at hl; cases hl
  · intro a w
    refine ⟨0, 0, TotalIs.zero.congr (fun i => by rw [h.offers]; rfl), TotalIs.zero.congr (fun i => by rw [h.bids]; rfl), ?_⟩
    rw [h.hs.2]; rfl
  · intro i o ho; rw [h.offers] at ho; cases ho
  · intro i id n
    rw [h.tokenOffers]
    constructor
    · intro hx; exact (List.not_mem_nil hx).elim
    · rintro ⟨o, ho, _⟩; rw [h.offers] at ho; cases ho
  · intro id n; rw [h.tokenOffers]; exact List.Pairwise.nil
  · intro i b hb; rw [h.bids] at hb; cases hb
  · intro i l hl; rw [h.listings] at hl; cases hl

/-- What a listing reserves. -/
abbrev owed (l : Listing) : Nat → Nat → Acct → Nat :=
  fun id n a => 0 + if a = l.seller then tokQty l.tokens id n else 0

/-- Removing listing `i`: its tokens are not yet freed. -/
theorem Good.remove {c : Cfg} {s : St} {pend pend' : List Nat} (h : Good c s pend) {i : Nat} {l : Listing}
    (hl : s.listings i = some l) (hp : ∀ j, j ∈ pend' ↔ j ∈ pend ∧ j ≠ i) :
    Struct (removeListing s i l).listings (removeListing s i l).sched s.now s.nextListing pend' ∧
    Lk c s.nft s.sft (removeListing s i l).listings s.nextListing (owed l) ∧
    Mi c s.hs (removeListing s i l).listings s.bids s.offers s.tokenOffers s.assetOf s.nextOffer s.nextListing ∧
    (∀ id ns, l.tokens = .nft id ns → ∀ n ∈ ns, ∀ j, s.nft.locks id n = some j → (removeListing s i l).listings j = none) ∧
    (∀ id xs, l.tokens = .sft id xs → ∀ x ∈ xs, x.2 ≠ 0) := by
  refine ⟨h.st.drop hl hp, h.lk.drop hl, h.mi.dropListing i, ?_, fun id xs ht => h.lk.nz i l id xs hl ht⟩
  intro id ns ht n hn j hj
  have := ((h.lk.nft i l id ns hl ht).2.2 n hn).1
  rw [this] at hj
  cases hj
  exact upd_same _ _ _

theorem owed_zero (l : Listing) : ∀ id n a, (fun _ _ _ => 0 : Nat → Nat → Acct → Nat) id n a ≤ owed l id n a :=
  fun _ _ _ => Nat.zero_le _

/-- What buying does. -/
theorem buy_ok {c : Cfg} {s s' : St} {who : Acct} {i : Nat} (h : buy c s who i = .ok s') (hg : Good c s [])
    (hw : who ≠ c.holds.pot) :
    ∃ l L, s.listings i = some l ∧ l.auction = false ∧ (∀ b, l.buyer = some b → who = b) ∧
      Holds.splitTransfer s.hs.ledger l.asset who (payouts l.seller l.royalties l.price) = .ok L ∧
      unlockTransfer c (setLedger (removeListing s i l) L) l.seller who l.tokens = .ok s' ∧
      (∃ n f, s' = { setLedger (removeListing s i l) L with nft := n, sft := f }) ∧ Good c s' [] := by
  simp only [buy, bind_ok, okOr_ok, ensure_ok] at h
  obtain ⟨l, hl, _, ha, _, hb, L, hL, ht⟩ := h
  refine ⟨l, L, hl, ha, hb, hL, ht, ?_⟩
  obtain ⟨r1, r2, r3, r4, r5⟩ := hg.remove (pend' := []) hl (by simp)
  obtain ⟨g1, g2, g3, g4, g5, g6⟩ := hg.mi.lst i l hl
  obtain ⟨p1, p2, p3, p4, p5, p6⟩ := pay_ok hL g3 g2 hg.mi.hi.sound (hg.mi.iss _)
  obtain ⟨⟨n, f, rfl⟩, k⟩ := r2.transfer (s := setLedger (removeListing s i l) L) r4 ht
  refine ⟨⟨n, f, rfl⟩, hg.dur, r1, k, r3.money (hg.mi.hi.ledger p4 (fun b => ?_)) (fun b => ?_) (fun _ _ => rfl)⟩
  · by_cases hx : b = l.asset
    · subst hx
      have := p6 c.holds.pot
      rw [if_neg (fun hx => hw hx.symm)] at this
      omega
    · rw [p5 b hx]
  · dsimp only [setLedger]
    rw [p3]; exact hg.mi.iss b

theorem buyMulti_good {c : Cfg} {who : Acct} (hw : who ≠ c.holds.pot) : ∀ (is : List Nat) {s s' : St},
    buyMulti c who is s = .ok s' → Good c s [] → Good c s' []
  | [], _, _, h, hg => by cases h; exact hg
  | i :: is, s, s', h, hg => by
    simp only [buyMulti, bind_ok] at h
    obtain ⟨s1, h1, h2⟩ := h
    obtain ⟨_, _, _, _, _, _, _, _, g⟩ := buy_ok h1 hg hw
    exact buyMulti_good hw is h2 g

theorem endBlock_ok {c : Cfg} {s : St} {d : Option Nat} {e : Nat} (h : endBlock c s d = .ok e) (hd : 0 < c.defaultDur)
    (ht : s.now + 40 < U32) : s.now < e := by
  cases d with
  | none => cases h; simp only [U32] at *; omega
  | some d =>
    simp only [endBlock, bind_ok, ensure_ok, pure_ok] at h
    obtain ⟨_, h0, rfl⟩ := h
    simp only [U32] at *; omega

theorem list_good {c : Cfg} {s s' : St} {b : Bool} {who : Acct} {t : Tokens} {y : Option Acct} {a : AssetId} {p : Nat}
    {d m : Option Nat} (h : list c s b who t y a p d m = .ok s') (hg : Good c s []) (hw : who ≠ c.holds.pot) :
    Good c s' [] := by
  simp only [list, bind_ok, ensure_ok, pure_ok] at h
  obtain ⟨_, hp, _, hv, roy, hr, _, hn, s1, h1, e, he, rfl⟩ := h
  have hc := endBlock_ok he hg.dur hg.st.time
  obtain ⟨⟨n, f, rfl⟩, k⟩ := hg.lk.list (l := ⟨b, a, p, e, t, y, who, roy, m⟩) hg.st.below hv h1 rfl rfl
  exact ⟨hg.dur, hg.st.add (l := ⟨b, a, p, e, t, y, who, roy, m⟩) hc, k,
    hg.mi.addListing (l := ⟨b, a, p, e, t, y, who, roy, m⟩) hp (bundle_good hr) hw⟩

theorem updatePrice_good {c : Cfg} {s s' : St} {who : Acct} {i p : Nat} (h : updatePrice s who i p = .ok s')
    (hg : Good c s []) : Good c s' [] := by
  simp only [updatePrice, bind_ok, okOr_ok, ensure_ok, pure_ok] at h
  obtain ⟨_, hp, l, hl, _, ha, _, hs, rfl⟩ := h
  exact ⟨hg.dur, hg.st.same hl rfl, hg.lk.relist hl rfl rfl, hg.mi.relist hl rfl hp rfl rfl rfl
    (fun hx => by rw [ha] at hx; cases hx)⟩

/-- What cancelling does. -/
theorem cancelSale_ok {c : Cfg} {s s' : St} {who : Acct} {i : Nat} (h : cancelSale s who i = .ok s') (hg : Good c s []) :
    ∃ l, s.listings i = some l ∧ l.seller = who ∧ (l.auction = true → s.bids i = none) ∧
      s' = unlockSoft (removeListing s i l) l.seller l.tokens ∧ Good c s' [] := by
  simp only [cancelSale, bind_ok, okOr_ok, ensure_ok, pure_ok] at h
  obtain ⟨l, hl, _, hs, _, hb, s1, h1, rfl⟩ := h
  subst hs
  refine ⟨l, hl, rfl, hb, ?_⟩
  obtain ⟨r1, r2, r3, r4, r5⟩ := hg.remove (pend' := []) hl (by simp)
  obtain ⟨⟨n, f, e⟩, k1, k2⟩ := r2.unlockSoft (s := removeListing s i l) r4 r5
  have : removeListing s1 i l = unlockSoft (removeListing s i l) l.seller l.tokens := by
    cases ht : l.tokens with
    | nft id ns => rw [ht] at h1; cases h1; rfl
    | sft id xs =>
      rw [ht] at h1 k1
      simp only [unlockTokens, bind_ok, pure_ok] at h1 k1
      obtain ⟨t, h1, rfl⟩ := h1
      obtain ⟨t', h2, h3⟩ := k1
      rw [show (removeListing s i l).sft = s.sft from rfl, h1] at h2
      cases h2
      rw [← h3]; rfl
  refine ⟨this, ?_⟩
  rw [this]
  rw [e] at k2 ⊢
  exact ⟨hg.dur, r1, k2, r3⟩

/-- What bidding does. -/
theorem bid_ok' {c : Cfg} {s s' : St} {who : Acct} {i x : Nat} (h : bid c s who i x = .ok s') (hg : Good c s [])
    (hw : who ≠ c.holds.pot) :
    ∃ l h1 h2, s.listings i = some l ∧ l.auction = true ∧ beats x l.price (s.bids i) = true ∧
      Holds.place c.holds s.hs c.pid who l.asset x = .ok h1 ∧ refund c h1 l.asset (s.bids i) = .ok h2 ∧
      s' = extend { s with hs := h2, bids := upd s.bids i (some (who, x)) } i l ∧ Good c s' [] := by
  simp only [bid, bind_ok, okOr_ok, ensure_ok, pure_ok] at h
  obtain ⟨_, hx, l, hl, _, ha, _, hb, h1, e1, h2, e2, rfl⟩ := h
  refine ⟨l, h1, h2, hl, ha, hb, e1, e2, rfl, ?_⟩
  obtain ⟨g1, g2, g3, g4, g5, g6⟩ := hg.mi.lst i l hl
  obtain ⟨p1, p2, p3⟩ := Holds.place_ok e1 hg.mi.hi hw
  obtain ⟨_, t2, _, _⟩ := Ledger.transfer_ok p2
  have key : Holds.HI c.holds h2 ∧ h2.ledger.iss = s.hs.ledger.iss ∧
      ∀ a w, Holds.holdOf (h2.holds a w) c.pid + bidAmt (s.bids i) (s.assetOf i) a w =
        Holds.holdOf (s.hs.holds a w) c.pid + bidAmt (some (who, x)) (s.assetOf i) a w := by
    have hplace : ∀ a w, Holds.holdOf (h1.holds a w) c.pid =
        Holds.holdOf (s.hs.holds a w) c.pid + bidAmt (some (who, x)) (s.assetOf i) a w := by
      intro a w
      rw [p3, g1]
      unfold bidAmt
      dsimp only
      congr 1
      by_cases hc : a = l.asset ∧ w = who ∧ c.pid = c.pid
      · rw [if_pos hc, if_pos ⟨hc.1.symm, hc.2.1.symm⟩]
      · rw [if_neg hc, if_neg (fun hx => hc ⟨hx.1.symm, hx.2.symm, rfl⟩)]
    cases hbid : s.bids i with
    | none =>
      rw [hbid] at e2
      cases e2
      exact ⟨p1, t2, fun a w => by rw [hplace]; rfl⟩
    | some b =>
      rw [hbid] at e2
      obtain ⟨q1, _, q2, q3⟩ := Holds.release_ok e2 p1 (hg.mi.bid i b hbid).1
      obtain ⟨_, t2', _, _⟩ := Ledger.transfer_ok q2
      refine ⟨q1, t2'.trans t2, fun a w => ?_⟩
      rw [← hplace, ← q3 a w c.pid]
      congr 1
      unfold bidAmt
      dsimp only
      rw [g1]
      by_cases hc : a = l.asset ∧ w = b.1 ∧ c.pid = c.pid
      · rw [if_pos hc, if_pos ⟨hc.1.symm, hc.2.1.symm⟩]
      · rw [if_neg hc, if_neg (fun hx => hc ⟨hx.1.symm, hx.2.symm, rfl⟩)]
  obtain ⟨k1, k2, k3⟩ := key
  have hm := hg.mi.setBid (hs' := h2) (i := i) (b := some (who, x)) k1 (fun a => by rw [k2]; exact hg.mi.iss a) k3
    (fun y hy => by
      cases hy
      refine ⟨hw, hx, g5, fun l' hl' => ?_⟩
      rw [hl] at hl'; cases hl'
      refine ⟨ha, ?_⟩
      cases hbb : s.bids i with
      | none =>
        rw [hbb] at hb
        simpa [beats] using hb
      | some b =>
        rw [hbb] at hb
        have h1 : b.2 < x := by simpa [beats] using hb
        have h2 := (g6 b hbb).2
        dsimp only
        omega)
  unfold extend
  split
  · have hmove := hg.st.move hl (b' := s.now + 40) (by omega)
    exact ⟨hg.dur, hmove, hg.lk.relist hl rfl rfl, hm.relist hl rfl g2 rfl rfl rfl (fun _ => rfl)⟩
  · exact ⟨hg.dur, hg.st, hg.lk, hm⟩

theorem makeOffer_ok' {c : Cfg} {s s' : St} {who : Acct} {id n x : Nat} {a : AssetId} {m : Option Nat}
    (h : makeOffer c s who id n x a m = .ok s') (hg : Good c s []) (hw : who ≠ c.holds.pot) :
    ∃ hs, Holds.place c.holds s.hs c.pid who a x = .ok hs ∧ x ≠ 0 ∧ onAuction s id n = false ∧
      (∃ o, Nft.ownerOf s.nft id n = some o ∧ o ≠ who) ∧
      s' = { s with
        hs := hs
        tokenOffers := upd s.tokenOffers id (upd (s.tokenOffers id) n (s.tokenOffers id n ++ [s.nextOffer]))
        offers := upd s.offers s.nextOffer (some ⟨id, n, a, x, who, m⟩)
        nextOffer := s.nextOffer + 1 } ∧ Good c s' [] := by
  simp only [makeOffer, bind_ok, okOr_ok, ensure_ok, pure_ok] at h
  obtain ⟨_, hx, _, h0, o, ho, _, hne, _, _, _, hon, hs, e1, _, _, rfl⟩ := h
  refine ⟨hs, e1, h0, hon, ⟨o, ho, hne⟩, rfl, hg.dur, hg.st, hg.lk, ?_⟩
  obtain ⟨p1, p2, p3⟩ := Holds.place_ok e1 hg.mi.hi hw
  obtain ⟨_, t2, _, _⟩ := Ledger.transfer_ok p2
  refine hg.mi.addOffer (o := ⟨id, n, a, x, who, m⟩) p1 (fun b => by rw [t2]; exact hg.mi.iss b) (fun b w => ?_)
    ⟨hw, Nat.pos_of_ne_zero h0, hx⟩
  rw [p3]
  unfold offerAmt
  dsimp only
  congr 1
  by_cases hc : b = a ∧ w = who ∧ c.pid = c.pid
  · rw [if_pos hc, if_pos ⟨hc.1.symm, hc.2.1.symm⟩]
  · rw [if_neg hc, if_neg (fun hx => hc ⟨hx.1.symm, hx.2.symm, rfl⟩)]

/-- What cancelling an offer does. -/
theorem cancelOffer_ok {c : Cfg} {s s' : St} {who : Acct} {i : Nat} (h : cancelOffer c s who i = .ok s') (hg : Good c s []) :
    ∃ o hs, s.offers i = some o ∧ o.buyer = who ∧ Holds.release c.holds s.hs c.pid who o.asset o.amount = .ok hs ∧
      s' = { s with
        hs := hs
        offers := upd s.offers i none
        tokenOffers := upd s.tokenOffers o.coll
          (upd (s.tokenOffers o.coll) o.serial ((s.tokenOffers o.coll o.serial).erase i)) } ∧ Good c s' [] := by
  simp only [cancelOffer, removeOffer, bind_ok, okOr_ok, ensure_ok, pure_ok] at h
  obtain ⟨o, ho, _, hb, hs, e1, _, _, rfl⟩ := h
  subst hb
  refine ⟨o, hs, ho, rfl, e1, rfl, hg.dur, hg.st, hg.lk, ?_⟩
  obtain ⟨q1, _, q2, q3⟩ := Holds.release_ok e1 hg.mi.hi (hg.mi.offer i o ho).1
  obtain ⟨_, t2, _, _⟩ := Ledger.transfer_ok q2
  refine hg.mi.dropOffer q1 (fun b => by rw [t2]; exact hg.mi.iss b) ho (fun b w => ?_)
  rw [← q3 b w c.pid]
  congr 1
  unfold offerAmt
  dsimp only
  by_cases hc : b = o.asset ∧ w = o.buyer ∧ c.pid = c.pid
  · rw [if_pos hc, if_pos ⟨hc.1.symm, hc.2.1.symm⟩]
  · rw [if_neg hc, if_neg (fun hx => hc ⟨hx.1.symm, hx.2.symm, rfl⟩)]

theorem unlist_ok {c : Cfg} {s : St} (hg : Good c s []) (id n : Nat) :
    (∃ ls sc ix, unlist s id n = { s with listings := ls, sched := sc, index := ix }) ∧ Good c (unlist s id n) [] ∧
    (∀ j, s.nft.locks id n = some j → (unlist s id n).listings j = none) ∧
    (∀ j, s.nft.locks id n ≠ some j → (unlist s id n).listings j = s.listings j) := by
  unfold unlist
  cases hk : lockedBy s id n with
  | none =>
    refine ⟨⟨_, _, _, rfl⟩, hg, fun j hj => ?_, fun _ _ => rfl⟩
    unfold lockedBy at hk
    rw [hj] at hk
    dsimp only [Option.bind] at hk
    cases hl : s.listings j with
    | none => rfl
    | some l => rw [hl] at hk; cases hk
  | some x =>
    have hx : s.nft.locks id n = some x.1 ∧ s.listings x.1 = some x.2 := by
      unfold lockedBy at hk
      cases hj : s.nft.locks id n with
      | none => rw [hj] at hk; cases hk
      | some j =>
        rw [hj] at hk
        dsimp only [Option.bind] at hk
        cases hl : s.listings j with
        | none => rw [hl] at hk; cases hk
        | some l => rw [hl] at hk; cases hk; exact ⟨rfl, hl⟩
    obtain ⟨r1, r2, r3, r4, r5⟩ := hg.remove (pend' := []) hx.2 (by simp)
    dsimp only
    refine ⟨⟨_, _, _, rfl⟩, ⟨hg.dur, r1, r2.weaken (owed_zero _), r3⟩, fun j hj => ?_, fun j hj => ?_⟩
    · rw [hx.1] at hj
      cases hj
      exact upd_same _ _ _
    · exact upd_ne _ _ (fun he => hj (he ▸ hx.1))

/-- What accepting an offer does. -/
theorem acceptOffer_ok {c : Cfg} {s s' : St} {who : Acct} {i : Nat} (h : acceptOffer c s who i = .ok s') (hg : Good c s []) :
    ∃ o roy hs s1, s.offers i = some o ∧ Nft.ownerOf s.nft o.coll o.serial = some who ∧
      bundle c (unlist s o.coll o.serial) (.nft o.coll [o.serial]) o.market = .ok roy ∧
      Holds.spend c.holds s.hs c.pid o.buyer o.asset (payouts who roy o.amount) = .ok hs ∧
      unlockTransfer c { unlist s o.coll o.serial with hs := hs } who o.buyer (.nft o.coll [o.serial]) = .ok s1 ∧
      (∃ n f, s1 = { unlist s o.coll o.serial with hs := hs, nft := n, sft := f }) ∧
      s' = { s1 with
        offers := upd s.offers i none
        tokenOffers := upd s.tokenOffers o.coll
          (upd (s.tokenOffers o.coll) o.serial ((s.tokenOffers o.coll o.serial).erase i)) } ∧ Good c s' [] := by
  simp only [acceptOffer, settle, removeOffer, bind_ok, okOr_ok, ensure_ok, pure_ok] at h
  obtain ⟨o, ho, _, hw, roy, hr, s1, ⟨hs, e1, e2⟩, _, _, rfl⟩ := h
  obtain ⟨⟨ls, sc, ix, e⟩, g, g2, g3⟩ := unlist_ok hg o.coll o.serial
  have e1' : Holds.spend c.holds s.hs c.pid o.buyer o.asset (payouts who roy o.amount) = .ok hs := by
    rw [e] at e1; exact e1
  have hlk : Lk c (unlist s o.coll o.serial).nft (unlist s o.coll o.serial).sft (unlist s o.coll o.serial).listings
      (unlist s o.coll o.serial).nextListing
      (fun j n a => (fun _ _ _ => 0 : Nat → Nat → Acct → Nat) j n a + if a = who then tokQty (.nft o.coll [o.serial]) j n else 0) :=
    g.lk.weaken (fun id n a => by simp [tokQty])
  obtain ⟨⟨n, f, rfl⟩, k⟩ := hlk.transfer (s := { unlist s o.coll o.serial with hs := hs })
    (by
      intro id ns ht n hn j hj
      cases ht
      rw [List.mem_singleton] at hn
      subst hn
      refine g2 j ?_
      rw [e] at hj; exact hj) e2
  refine ⟨o, roy, hs, _, ho, hw, hr, e1', e2, ⟨n, f, rfl⟩, ?_, ?_⟩
  · rw [e]
  · have gm := g.mi
    have gs := g.st
    rw [e] at k gm gs ⊢
    obtain ⟨q0, q1, _, q2, _, _, q3⟩ := spendPay_ok e1' (bundle_good hr) (hg.mi.offer i o ho).2.2.1 hg.mi.hi (hg.mi.iss _)
    refine ⟨hg.dur, gs, k, gm.dropOffer q1 (fun b => by rw [q2]; exact hg.mi.iss b) ho (fun b w => ?_)⟩
    dsimp only
    rw [← q3 b w c.pid]
    congr 1
    unfold offerAmt
    dsimp only
    by_cases hc : b = o.asset ∧ w = o.buyer ∧ c.pid = c.pid
    · rw [if_pos hc, if_pos ⟨hc.1.symm, hc.2.1.symm⟩]
    · rw [if_neg hc, if_neg (fun hx => hc ⟨hx.1.symm, hx.2.symm, rfl⟩)]

/-- Releasing a positive hold that is there succeeds. -/
theorem release_succeeds {c : Holds.Cfg} {s : Holds.St} {p : Nat} {w : Acct} {a : AssetId} {amt : Nat} (hi : Holds.HI c s)
    (h0 : 0 < amt) (hle : amt ≤ Holds.holdOf (s.holds a w) p) (hw : w ≠ c.pot) :
    ∃ t, Holds.release c s p w a amt = .ok t := by
  have hh : Holds.has (s.holds a w) p = true := by
    by_contra hn
    have := Holds.holdOf_not hn
    omega
  obtain ⟨n, hn, hb⟩ := hi.backed a
  have h1 : Holds.holdOf (s.holds a w) p ≤ Holds.sumOf (s.holds a w) := Holds.holdOf_le
  have h2 := hn.le w
  have hbal : amt ≤ s.ledger.bal a c.pot := by omega
  have hd : ∃ l, Holds.decrease (s.holds a w) p amt = .ok l := by
    unfold Holds.decrease
    rw [ensure_pos hh, ensure_pos hle]
    exact ⟨_, rfl⟩
  obtain ⟨l, hl⟩ := hd
  have : ∃ L, s.ledger.transfer a c.pot w amt = .ok L := by
    unfold Ledger.transfer
    rw [if_pos hbal]
    exact ⟨_, rfl⟩
  obtain ⟨L, hL⟩ := this
  refine ⟨Holds.setHolds s L a w l, ?_⟩
  simp only [Holds.release, bind_ok, pure_ok]
  exact ⟨l, hl, L, hL, rfl⟩

/-- What is left after the money of a failed auction went back. -/
theorem releaseSoft_ok {c : Cfg} {s : St} {w : Acct} {a : AssetId} {amt : Nat} (hi : Holds.HI c.holds s.hs)
    (hle : amt ≤ Holds.holdOf (s.hs.holds a w) c.pid) (hw : w ≠ c.holds.pot) :
    ∃ hs, releaseSoft c s w a amt = { s with hs := hs } ∧ Holds.HI c.holds hs ∧ hs.ledger.iss = s.hs.ledger.iss ∧
      (∀ b, b ≠ a → hs.ledger.bal b = s.hs.ledger.bal b) ∧
      (∀ y, hs.ledger.bal a y + (if y = c.holds.pot then amt else 0) = s.hs.ledger.bal a y + if y = w then amt else 0) ∧
      ∀ b y q, Holds.holdOf (hs.holds b y) q + (if b = a ∧ y = w ∧ q = c.pid then amt else 0) =
        Holds.holdOf (s.hs.holds b y) q := by
  unfold releaseSoft
  cases hr : Holds.release c.holds s.hs c.pid w a amt with
  | ok h =>
    obtain ⟨q1, _, q2, q3⟩ := Holds.release_ok hr hi hw
    obtain ⟨_, t2, t3, t4⟩ := Ledger.transfer_ok q2
    exact ⟨h, rfl, q1, t2, t3, t4, q3⟩
  | error e =>
    have h0 : amt = 0 := by
      by_contra hne
      obtain ⟨t, ht⟩ := release_succeeds hi (Nat.pos_of_ne_zero hne) hle hw
      rw [ht] at hr; cases hr
    subst h0
    exact ⟨s.hs, rfl, hi, rfl, fun _ _ => rfl, fun y => by simp, fun b y q => by simp⟩

/-- The hold of an account covers each of its bids. -/
theorem Mi.covers {c : Cfg} {hs : Holds.St} {ls : Book} {bids : Nat → Option (Acct × Nat)} {offers : Nat → Option Offer}
    {tos : Nat → Nat → List Nat} {as : Nat → AssetId} {no nl : Nat} (h : Mi c hs ls bids offers tos as no nl) {i : Nat}
    {b : Acct × Nat} (hb : bids i = some b) : b.2 ≤ Holds.holdOf (hs.holds (as i) b.1) c.pid := by
  obtain ⟨m, k, _, e2, e3⟩ := h.exact (as i) b.1
  have := e2.le i
  rw [hb] at this
  unfold bidAmt at this
  dsimp only at this
  rw [if_pos ⟨rfl, rfl⟩] at this
  omega

/-- What closing one listing does. -/
theorem closeOne_good {c : Cfg} {s : St} {i : Nat} {ids : List Nat} (hg : Good c s (i :: ids)) (hi : i ∉ ids) :
    Good c (closeOne c s i) ids ∧ ∀ j, j ≠ i → (closeOne c s i).listings j = s.listings j ∧
      (closeOne c s i).bids j = s.bids j := by
  unfold closeOne
  cases hl : s.listings i with
  | none => exact ⟨⟨hg.dur, hg.st.skip hl, hg.lk, hg.mi⟩, fun _ _ => ⟨rfl, rfl⟩⟩
  | some l =>
    dsimp only
    obtain ⟨r1, r2, r3, r4, r5⟩ := hg.remove (pend' := ids) hl (by
      intro j; rw [List.mem_cons]
      constructor
      · intro hj; exact ⟨Or.inr hj, fun he => hi (he ▸ hj)⟩
      · rintro ⟨rfl | hj, hne⟩
        · exact absurd rfl hne
        · exact hj)
    have hother : ∀ j, j ≠ i → (removeListing s i l).listings j = s.listings j ∧ s.bids j = s.bids j :=
      fun j hj => ⟨upd_ne _ _ hj, rfl⟩
    have hother' : ∀ j, j ≠ i → (removeListing s i l).listings j = s.listings j ∧ upd s.bids i none j = s.bids j :=
      fun j hj => ⟨upd_ne _ _ hj, upd_ne _ _ hj⟩
    obtain ⟨⟨n, f, e⟩, k1, k2⟩ := r2.unlockSoft (s := removeListing s i l) r4 r5
    have hsoft : Good c (unlockSoft (removeListing s i l) l.seller l.tokens) ids ∧ ∀ j, j ≠ i →
        (unlockSoft (removeListing s i l) l.seller l.tokens).listings j = s.listings j ∧
        (unlockSoft (removeListing s i l) l.seller l.tokens).bids j = s.bids j := by
      rw [e] at k2 ⊢
      exact ⟨⟨hg.dur, r1, k2, r3⟩, hother⟩
    split
    · unfold closeAuction
      cases hb : (removeListing s i l).bids i with
      | none => exact hsoft
      | some b =>
        dsimp only
        have hb' : s.bids i = some b := hb
        obtain ⟨g1, g2, g3, g4, g5, g6⟩ := hg.mi.lst i l hl
        obtain ⟨b1, b2, b3⟩ := hg.mi.bid i b hb'
        have hcov := hg.mi.covers hb'
        rw [g1] at hcov
        split
        · rename_i s' hs
          simp only [settle, bind_ok] at hs
          obtain ⟨h, e1, e2⟩ := hs
          obtain ⟨q0, q1, _, q2, _, _, q3⟩ := spendPay_ok e1 g3 b2 hg.mi.hi (hg.mi.iss _)
          obtain ⟨⟨n, f, rfl⟩, k⟩ := r2.transfer
            (s := { removeListing s i l with hs := h, bids := upd s.bids i none }) r4 e2
          refine ⟨⟨hg.dur, r1, k, r3.setBid q1 (fun a => by rw [q2]; exact hg.mi.iss a) (fun a w => ?_) (fun x hx => by cases hx)⟩,
            hother'⟩
          have hq := q3 a w c.pid
          rw [show (removeListing s i l).hs = s.hs from rfl] at hq
          rw [← hq, hb', g1]
          unfold bidAmt
          dsimp only
          by_cases hc : a = l.asset ∧ w = b.1 ∧ c.pid = c.pid
          · rw [if_pos hc, if_pos ⟨hc.1.symm, hc.2.1.symm⟩]; rfl
          · rw [if_neg hc, if_neg (fun hx => hc ⟨hx.1.symm, hx.2.symm, rfl⟩)]
        · obtain ⟨h, e1, q1, q2, _, _, q3⟩ := releaseSoft_ok
            (s := { removeListing s i l with bids := upd s.bids i none }) (w := b.1) (a := l.asset) (amt := b.2)
            hg.mi.hi hcov b1
          rw [show upd (removeListing s i l).bids i none = upd s.bids i none from rfl, e1]
          refine ⟨⟨hg.dur, r1, r2.weaken (owed_zero l), r3.setBid q1 (fun a => by rw [q2]; exact hg.mi.iss a) (fun a w => ?_)
            (fun x hx => by cases hx)⟩, hother'⟩
          have := q3 a w c.pid
          rw [show ({ removeListing s i l with bids := upd s.bids i none } : St).hs = s.hs from rfl] at this
          rw [← this, hb', g1]
          unfold bidAmt
          dsimp only
          by_cases hc : a = l.asset ∧ w = b.1 ∧ c.pid = c.pid
          · rw [if_pos hc, if_pos ⟨hc.1.symm, hc.2.1.symm⟩]; rfl
          · rw [if_neg hc, if_neg (fun hx => hc ⟨hx.1.symm, hx.2.symm, rfl⟩)]
    · exact hsoft

theorem closeAll_good {c : Cfg} : ∀ (ids : List Nat) {s : St}, Good c s ids → ids.Nodup →
    Good c (ids.foldl (closeOne c) s) []
  | [], _, h, _ => h
  | i :: ids, s, h, hn => by
    rw [List.nodup_cons] at hn
    rw [List.foldl_cons]
    exact closeAll_good ids (closeOne_good h hn.1).1 hn.2

theorem nextBlock_good {c : Cfg} {s s' : St} {ids : List Nat} (h : nextBlock c s ids = .ok s') (hg : Good c s []) :
    Good c s' [] := by
  simp only [nextBlock, bind_ok, ensure_ok, pure_ok] at h
  obtain ⟨_, ht, _, hp, rfl⟩ := h
  exact closeAll_good ids ⟨hg.dur, hg.st.tick hp ht, hg.lk, hg.mi⟩ (hp.nodup_iff.mpr (hg.st.nodup _))

theorem Good.step {c : Cfg} {s s' : St} {op : Op} (hg : Good c s []) (he : Env c s op) (h : step c s op = .ok s') :
    Good c s' [] := by
  cases op with
  | list b w t y a p d m => exact list_good h hg he
  | updatePrice w i p => exact updatePrice_good h hg
  | buy w i => obtain ⟨_, _, _, _, _, _, _, _, g⟩ := buy_ok h hg he; exact g
  | buyMulti w is => exact buyMulti_good he is h hg
  | bid w i x => obtain ⟨_, _, _, _, _, _, _, _, _, g⟩ := bid_ok' h hg he; exact g
  | cancelSale w i => obtain ⟨_, _, _, _, _, g⟩ := cancelSale_ok h hg; exact g
  | makeOffer w id n x a m => obtain ⟨_, _, _, _, _, _, g⟩ := makeOffer_ok' h hg he; exact g
  | cancelOffer w i => obtain ⟨_, _, _, _, _, _, g⟩ := cancelOffer_ok h hg; exact g
  | acceptOffer w i => obtain ⟨_, _, _, _, _, _, _, _, _, _, _, g⟩ := acceptOffer_ok h hg; exact g
  | registerMarket w a p =>
    simp only [Market.step, registerMarket, bind_ok, ensure_ok, pure_ok] at h
    obtain ⟨_, _, _, _, rfl⟩ := h
    exact ⟨hg.dur, hg.st, hg.lk, hg.mi⟩
  | setFeeTo f => cases h; exact ⟨hg.dur, hg.st, hg.lk, hg.mi⟩
  | nextBlock ids => exact nextBlock_good h hg
  | nft op =>
    simp only [Market.step, bind_ok, pure_ok] at h
    obtain ⟨t, h, rfl⟩ := h
    exact ⟨hg.dur, hg.st, hg.lk.nftStep he h, hg.mi⟩
  | sft op =>
    simp only [Market.step, bind_ok, pure_ok] at h
    obtain ⟨t, h, rfl⟩ := h
    exact ⟨hg.dur, hg.st, hg.lk.sftStep he h, hg.mi⟩
  | assets op =>
    simp only [Market.step, bind_ok, pure_ok] at h
    obtain ⟨t, h, rfl⟩ := h
    exact ⟨hg.dur, hg.st, hg.lk, hg.mi.outside he h⟩

theorem Reach.good {c : Cfg} {G : St → Op → Prop} {s : St} (hG : ∀ s op, G s op → Env c s op) (h : Reach c G s) :
    Good c s [] := by
  induction h with
  | init hg => exact Good.genesis hg
  | step _ hg hs ih => exact ih.step (hG _ _ hg) hs

end Verif.Market
