import Verif.Market.Bids

/-! Who can change or close a listing, and which royalties it carries (C84, C85). -/

namespace Verif.Market

/-! ## C84 -/

/-- The only ways an open listing changes: its seller sets another price (fixed price sales only), or a bid on it moves
its closing block back (auctions only). -/
def ChangedBy (op : Op) (i : Nat) (l l' : Listing) : Prop :=
  l' = l ∨ (∃ p, op = .updatePrice l.seller i p ∧ l.auction = false ∧ l' = { l with price := p }) ∨
    (∃ w x e, op = .bid w i x ∧ l.auction = true ∧ l.close ≤ e ∧ l' = { l with close := e })

/-- The only ways a listing is closed: by its seller, by a permitted purchase, by its time running out, or by the owner
of a token in it accepting an offer for that token. -/
def ClosedBy (s : St) (op : Op) (i : Nat) (l : Listing) : Prop :=
  (op = .cancelSale l.seller i ∧ (l.auction = true → s.bids i = none)) ∨
  (∃ w, (op = .buy w i ∨ ∃ is, i ∈ is ∧ op = .buyMulti w is) ∧ l.auction = false ∧ ∀ b, l.buyer = some b → w = b) ∨
  (∃ ids, op = .nextBlock ids ∧ l.close = s.now + 1) ∨
  (∃ w j o, op = .acceptOffer w j ∧ s.offers j = some o ∧ Nft.ownerOf s.nft o.coll o.serial = some w ∧
    s.nft.locks o.coll o.serial = some i)

theorem buyMulti_listing {c : Cfg} {who : Acct} (hw : who ≠ c.holds.pot) : ∀ (is : List Nat) {s s' : St},
    buyMulti c who is s = .ok s' → Good c s [] → ∀ i l, s.listings i = some l →
      (i ∉ is ∧ s'.listings i = some l) ∨ (i ∈ is ∧ s'.listings i = none ∧ l.auction = false ∧ ∀ b, l.buyer = some b → who = b)
  | [], s, s', h, _, i, l, hl => by
    cases h; exact Or.inl ⟨by simp, hl⟩
  | j :: is, s, s', h, hg, i, l, hl => by
    simp only [buyMulti, bind_ok] at h
    obtain ⟨s1, h1, h2⟩ := h
    obtain ⟨l0, L, hl0, ha, hb, hu1, hu2, ⟨n, f, e⟩, hg1⟩ := buy_ok h1 hg hw
    have hls : s1.listings = upd s.listings j none := by rw [e]; rfl
    by_cases hj : i = j
    · subst hj
      rw [hl] at hl0; cases hl0
      refine Or.inr ⟨List.mem_cons_self, ?_, ha, hb⟩
      have hn : s1.listings i = none := by rw [hls, upd_same]
      clear h1 e hls hu1 hu2
      induction is generalizing s1 with
      | nil => cases h2; exact hn
      | cons k is ih =>
        simp only [buyMulti, bind_ok] at h2
        obtain ⟨s2, h3, h4⟩ := h2
        obtain ⟨l1, L1, hl1, _, _, _, _, ⟨n1, f1, e1⟩, hg2⟩ := buy_ok h3 hg1 hw
        refine ih s2 h4 hg2 ?_
        rw [e1]
        change upd s1.listings k none i = none
        rw [upd_apply]; split <;> [rfl; exact hn]
    · have hl1 : s1.listings i = some l := by rw [hls, upd_ne _ _ hj]; exact hl
      rcases buyMulti_listing hw is h2 hg1 i l hl1 with ⟨k1, k2⟩ | ⟨k1, k2⟩
      · exact Or.inl ⟨by simp [hj, k1], k2⟩
      · exact Or.inr ⟨List.mem_cons_of_mem _ k1, k2⟩

theorem listing_frame {c : Cfg} {s s' : St} {op : Op} (hg : Good c s []) (he : Env c s op) (hs : step c s op = .ok s')
    {i : Nat} {l : Listing} (hl : s.listings i = some l) :
    (∃ l', s'.listings i = some l' ∧ ChangedBy op i l l') ∨ (s'.listings i = none ∧ ClosedBy s op i l) := by
  have same : ∀ {f : Book} {op : Op}, f i = s.listings i → ∃ l', f i = some l' ∧ ChangedBy op i l l' :=
    fun hf => ⟨l, hf.trans hl, Or.inl rfl⟩
  cases op with
  | list b w t y a p d m =>
    simp only [step, list, bind_ok, ensure_ok, pure_ok] at hs
    obtain ⟨_, hp, _, hv, roy, hr, _, hn, s1, h1, e, he, rfl⟩ := hs
    obtain ⟨⟨n, f, rfl⟩, _⟩ := hg.lk.list (l := ⟨b, a, p, e, t, y, w, roy, m⟩) hg.st.below hv h1 rfl rfl
    exact Or.inl (same (upd_ne _ _ (Nat.ne_of_lt (hg.st.below i l hl))))
  | updatePrice w j p =>
    simp only [step, updatePrice, bind_ok, okOr_ok, ensure_ok, pure_ok] at hs
    obtain ⟨_, _, l0, hl0, _, ha, _, hw, rfl⟩ := hs
    refine Or.inl ?_
    by_cases hj : i = j
    · subst hj
      rw [hl] at hl0; cases hl0
      exact ⟨_, upd_same _ _ _, Or.inr (Or.inl ⟨p, by rw [hw], ha, rfl⟩)⟩
    · exact same (upd_ne _ _ hj)
  | buy w j =>
    obtain ⟨l0, L, hl0, ha, hb, _, _, ⟨n, f, e⟩, _⟩ := buy_ok hs hg he
    by_cases hj : i = j
    · subst hj
      rw [hl] at hl0; cases hl0
      refine Or.inr ⟨?_, Or.inr (Or.inl ⟨w, Or.inl rfl, ha, hb⟩)⟩
      rw [e]; exact upd_same _ _ _
    · refine Or.inl (same ?_)
      rw [e]; exact upd_ne _ _ hj
  | buyMulti w is =>
    rcases buyMulti_listing he is hs hg i l hl with ⟨_, k⟩ | ⟨k1, k2, k3, k4⟩
    · exact Or.inl (same (k.trans hl.symm))
    · exact Or.inr ⟨k2, Or.inr (Or.inl ⟨w, Or.inr ⟨is, k1, rfl⟩, k3, k4⟩)⟩
  | bid w j x =>
    obtain ⟨l', h1, h2, hl', ha, _, _, _, rfl, _⟩ := bid_ok' hs hg he
    obtain ⟨⟨b', _, hc, k1⟩, k2, _⟩ := extend_listings { s with hs := h2, bids := upd s.bids j (some (w, x)) } j l' hl'
    refine Or.inl ?_
    by_cases hj : i = j
    · subst hj
      rw [hl] at hl'; cases hl'
      exact ⟨_, k1, Or.inr (Or.inr ⟨w, x, b', rfl, ha, hc, rfl⟩)⟩
    · exact same (k2 i hj)
  | cancelSale w j =>
    obtain ⟨l', hl', hw, hnb, e, _⟩ := cancelSale_ok hs hg
    have hsoft : ∃ n f, unlockSoft (removeListing s j l') l'.seller l'.tokens =
        { removeListing s j l' with nft := n, sft := f } := by
      cases l'.tokens <;> exact ⟨_, _, rfl⟩
    obtain ⟨n, f, e'⟩ := hsoft
    by_cases hj : i = j
    · subst hj
      rw [hl] at hl'; cases hl'
      refine Or.inr ⟨?_, Or.inl ⟨by rw [hw], hnb⟩⟩
      rw [e, e']; exact upd_same _ _ _
    · rw [e, e']
      exact Or.inl (same (upd_ne _ _ hj))
  | makeOffer w id n x a m => obtain ⟨_, _, _, _, _, rfl, _⟩ := makeOffer_ok' hs hg he; exact Or.inl (same rfl)
  | cancelOffer w j => obtain ⟨_, _, _, _, _, rfl, _⟩ := cancelOffer_ok hs hg; exact Or.inl (same rfl)
  | acceptOffer w j =>
    obtain ⟨o, _, _, s1, ho, how, _, _, _, ⟨n, f, rfl⟩, rfl, _⟩ := acceptOffer_ok hs hg
    obtain ⟨⟨ls, sc, ix, e⟩, _, k1, k2⟩ := unlist_ok hg o.coll o.serial
    by_cases hk : s.nft.locks o.coll o.serial = some i
    · exact Or.inr ⟨k1 i hk, Or.inr (Or.inr (Or.inr ⟨w, j, o, rfl, ho, how, hk⟩))⟩
    · refine Or.inl ?_
      change ∃ l', (unlist s o.coll o.serial).listings i = some l' ∧ _
      exact same (k2 i hk)
  | registerMarket w a p =>
    simp only [step, registerMarket, bind_ok, ensure_ok, pure_ok] at hs
    obtain ⟨_, _, _, _, rfl⟩ := hs
    exact Or.inl (same rfl)
  | setFeeTo f => cases hs; exact Or.inl (same rfl)
  | nextBlock ids =>
    obtain ⟨k1, k2⟩ := nextBlock_frame hg hs
    by_cases hi : i ∈ ids
    · obtain ⟨⟨l0, hl0, hc⟩, h1, _⟩ := k2 i hi
      rw [hl] at hl0; cases hl0
      exact Or.inr ⟨h1, Or.inr (Or.inr (Or.inl ⟨ids, rfl, hc⟩))⟩
    · exact Or.inl (same (k1 i hi).1)
  | nft op =>
    simp only [step, bind_ok, pure_ok] at hs
    obtain ⟨t, _, rfl⟩ := hs
    exact Or.inl (same rfl)
  | sft op =>
    simp only [step, bind_ok, pure_ok] at hs
    obtain ⟨t, _, rfl⟩ := hs
    exact Or.inl (same rfl)
  | assets op =>
    simp only [step, bind_ok, pure_ok] at hs
    obtain ⟨t, _, rfl⟩ := hs
    exact Or.inl (same rfl)

/-- C84: the terms of an open listing (tokens, price, asset, buyer, seller, royalties, closing block) change only as
`ChangedBy` says. -/
theorem C84_terms {c : Cfg} {s s' : St} {op : Op} (h : Reach c (Env c) s) (he : Env c s op) (hs : step c s op = .ok s')
    {i : Nat} {l l' : Listing} (hl : s.listings i = some l) (hl' : s'.listings i = some l') : ChangedBy op i l l' := by
  rcases listing_frame (h.good (fun _ _ h => h)) he hs hl with ⟨l1, h1, h2⟩ | ⟨h1, _⟩
  · rw [h1] at hl'; cases hl'; exact h2
  · rw [h1] at hl'; cases hl'

/-- C84: a listing is closed only as `ClosedBy` says. -/
theorem C84_closed {c : Cfg} {s s' : St} {op : Op} (h : Reach c (Env c) s) (he : Env c s op) (hs : step c s op = .ok s')
    {i : Nat} {l : Listing} (hl : s.listings i = some l) (hl' : s'.listings i = none) : ClosedBy s op i l := by
  rcases listing_frame (h.good (fun _ _ h => h)) he hs hl with ⟨l1, h1, h2⟩ | ⟨_, h1⟩
  · rw [h1] at hl'; cases hl'
  · exact h1

/-- Non-vacuity: the seller raises the price of listing 0, cannot change auction 1, and account 2 can change neither. -/
example : (demo.listings 0).map Listing.price = some 10 ∧
    (((step cfg0 demo (.updatePrice 1 0 12)).toOption.bind (fun s => s.listings 0)).map Listing.price) = some 12 ∧
    errIs (step cfg0 demo (.updatePrice 2 0 12)) "NotSeller" = true ∧
    errIs (step cfg0 demo (.updatePrice 1 1 12)) "NotForFixedPriceSale" = true ∧
    (((step cfg0 demo (.buy 2 0)).toOption.map (fun s => s.listings 0))) = some none := by decide +kernel

/-! ## C85 -/

/-- The royalties of the tokens' collection. -/
def RoyaltiesOf (s : St) : Tokens → List (Acct × Nat) → Prop
  | .nft id _, r => ∃ k, s.nft.coll id = some k ∧ r = k.royalties.getD []
  | .sft id _, r => ∃ k, s.sft.coll id = some k ∧ r = k.royalties.getD []

/-- The shares agreed when a sale is made: the collection's royalties, the network fee if there is a recipient for it,
and the share of the marketplace it is made through. -/
def AgreedShares (c : Cfg) (s : St) (t : Tokens) (m : Option Nat) (r : List (Acct × Nat)) : Prop :=
  ∃ r0 mk, RoyaltiesOf s t r0 ∧ (match m with | none => mk = none | some m => mk = s.markets m ∧ mk ≠ none) ∧
    r = r0 ++ (s.feeTo.map (fun f => (f, c.netFee))).toList ++ mk.toList

theorem bundle_shares {c : Cfg} {s : St} {t : Tokens} {m : Option Nat} {r : List (Acct × Nat)} (h : bundle c s t m = .ok r) :
    AgreedShares c s t m r ∧ r.length ≤ 8 ∧ (r.map Prod.snd).sum ≤ 1000000 := by
  simp only [bundle, bind_ok, ensure_ok, pure_ok] at h
  obtain ⟨r0, h0, r1, h1, r2, h2, _, hv, rfl⟩ := h
  have e0 : RoyaltiesOf s t r0 := by
    cases t <;> simp only [collRoyalties, bind_ok, okOr_ok, pure_ok] at h0 <;>
    · obtain ⟨k, hk, e⟩ := h0
      exact ⟨k, hk, e.symm⟩
  have e1 : r1 = r0 ++ (s.feeTo.map (fun f => (f, c.netFee))).toList := by
    unfold pushFee at h1
    split at h1
    · rename_i hf; cases h1; simp [hf]
    · rename_i f hf
      simp only [pushShare, bind_ok, ensure_ok, pure_ok] at h1
      obtain ⟨_, _, rfl⟩ := h1
      simp [hf]
  refine ⟨?_, ?_⟩
  · cases m with
    | none => cases h2; exact ⟨r0, none, e0, rfl, by simp [e1]⟩
    | some m =>
      simp only [pushMarket, pushShare, bind_ok, okOr_ok, ensure_ok, pure_ok] at h2
      obtain ⟨x, hx, _, _, rfl⟩ := h2
      exact ⟨r0, some x, e0, ⟨hx.symm, by simp⟩, by simp [e1]⟩
  · rcases hv with rfl | hv
    · simp
    · simp only [validShares, Bool.and_eq_true, decide_eq_true_eq] at hv
      exact ⟨hv.1.2, hv.2⟩

/-- C85: a new listing carries exactly the agreed shares, together at most the whole price. -/
theorem C85_listing {c : Cfg} {s s' : St} {b : Bool} {who : Acct} {t : Tokens} {y : Option Acct} {a : AssetId} {p : Nat}
    {d m : Option Nat} (hs : step c s (.list b who t y a p d m) = .ok s') :
    ∃ l, s'.listings s.nextListing = some l ∧ l.seller = who ∧ l.tokens = t ∧ l.price = p ∧ l.asset = a ∧ l.buyer = y ∧
      l.auction = b ∧ AgreedShares c s t m l.royalties ∧ (l.royalties.map Prod.snd).sum ≤ 1000000 := by
  simp only [step, list, bind_ok, ensure_ok, pure_ok] at hs
  obtain ⟨_, hp, _, hv, roy, hr, _, hn, s1, h1, e, he, rfl⟩ := hs
  have hn1 : s1.nextListing = s.nextListing := by
    cases t <;> simp only [lockTokens, bind_ok, pure_ok] at h1 <;>
    · obtain ⟨_, _, rfl⟩ := h1
      rfl
  obtain ⟨k1, _, k2⟩ := bundle_shares hr
  refine ⟨⟨b, a, p, e, t, y, who, roy, m⟩, ?_, rfl, rfl, rfl, rfl, rfl, rfl, k1, k2⟩
  rw [← hn1]
  exact upd_same _ _ _

/-- C85: accepting an offer pays the shares agreed at that time. -/
theorem C85_offer {c : Cfg} {s s' : St} {who : Acct} {j : Nat} (h : Reach c (Env c) s)
    (hs : step c s (.acceptOffer who j) = .ok s') :
    ∃ o r, s.offers j = some o ∧ AgreedShares c s (.nft o.coll [o.serial]) o.market r ∧ (r.map Prod.snd).sum ≤ 1000000 ∧
      Holds.spend c.holds s.hs c.pid o.buyer o.asset (payouts who r o.amount) = .ok s'.hs := by
  have hg := h.good (fun _ _ h => h)
  obtain ⟨o, roy, h', s1, ho, how, hb, hsp, _, ⟨n, f, rfl⟩, rfl, _⟩ := acceptOffer_ok hs hg
  obtain ⟨⟨ls, sc, ix, e⟩, _⟩ := unlist_ok hg o.coll o.serial
  obtain ⟨k1, _, k2⟩ := bundle_shares hb
  refine ⟨o, roy, ho, ?_, k2, hsp⟩
  rw [e] at k1
  exact k1

/-- Non-vacuity: 10 % for the creator, half a percent for the network. -/
example : demo.feeTo = some 6 ∧ (demo.listings 0).map Listing.royalties = some [(5, 100000), (6, 5000)] ∧
    (step cfg0 demo (.acceptOffer 1 0)).isOk = true := by decide +kernel

end Verif.Market
