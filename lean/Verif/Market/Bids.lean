import Verif.Market.Props

/-!
# Properties of bids, offers and closing: C32, C33, C81, C82
-/

namespace Verif.Market

/-! ## frames -/

theorem buy_frame {c : Cfg} {s s' : St} {who : Acct} {i : Nat} (hs : buy c s who i = .ok s') (hg : Good c s [])
    (hw : who ≠ c.holds.pot) : s'.bids = s.bids ∧ ∀ j l, s.listings j = some l → l.auction = true → s'.listings j = some l := by
  obtain ⟨l, L, hl, ha, _, _, _, ⟨n, f, e⟩, _⟩ := buy_ok hs hg hw
  refine ⟨by rw [e]; rfl, fun j l' hl' ha' => ?_⟩
  have hne : j ≠ i := by
    rintro rfl
    rw [hl] at hl'; cases hl'
    rw [ha] at ha'; cases ha'
  rw [e]
  exact (upd_ne _ _ hne).trans hl'

theorem buyMulti_frame {c : Cfg} {who : Acct} (hw : who ≠ c.holds.pot) : ∀ (is : List Nat) {s s' : St},
    buyMulti c who is s = .ok s' → Good c s [] →
    s'.bids = s.bids ∧ ∀ j l, s.listings j = some l → l.auction = true → s'.listings j = some l
  | [], _, _, h, _ => by cases h; exact ⟨rfl, fun _ _ h _ => h⟩
  | i :: is, s, s', h, hg => by
    simp only [buyMulti, bind_ok] at h
    obtain ⟨s1, h1, h2⟩ := h
    obtain ⟨_, _, _, _, _, _, _, _, g⟩ := buy_ok h1 hg hw
    obtain ⟨f1, f2⟩ := buy_frame h1 hg hw
    obtain ⟨f3, f4⟩ := buyMulti_frame hw is h2 g
    exact ⟨f3.trans f1, fun j l hl ha => f4 j l (f2 j l hl ha) ha⟩

/-- The block hook closes exactly the listings given to it. -/
theorem closeAll_frame {c : Cfg} : ∀ (ids : List Nat) {s : St}, Good c s ids → ids.Nodup →
    (∀ j, j ∉ ids → (ids.foldl (closeOne c) s).listings j = s.listings j ∧ (ids.foldl (closeOne c) s).bids j = s.bids j) ∧
    (∀ j ∈ ids, ∀ l, s.listings j = some l →
      (ids.foldl (closeOne c) s).listings j = none ∧ (ids.foldl (closeOne c) s).bids j = none)
  | [], _, _, _ => ⟨fun _ _ => ⟨rfl, rfl⟩, fun _ h => nomatch h⟩
  | i :: ids, s, hg, hn => by
    rw [List.nodup_cons] at hn
    obtain ⟨g, hfr⟩ := closeOne_good hg hn.1
    obtain ⟨k1, k2⟩ := closeAll_frame ids g hn.2
    rw [List.foldl_cons]
    refine ⟨fun j hj => ?_, fun j hj l hl => ?_⟩
    · rw [List.mem_cons, not_or] at hj
      obtain ⟨a1, a2⟩ := k1 j hj.2
      obtain ⟨b1, b2⟩ := hfr j hj.1
      exact ⟨a1.trans b1, a2.trans b2⟩
    · by_cases he : j = i
      · subst he
        obtain ⟨a1, a2⟩ := k1 j hn.1
        obtain ⟨o1, _, o3, o4⟩ := closeOne_outcome hg hl
        refine ⟨a1.trans o1, a2.trans ?_⟩
        cases hb : s.bids j with
        | none => rw [(o3 hb).2.1]; exact hb
        | some b => rw [(o4 b hb).1]; exact upd_same _ _ _
      · have hj' : j ∈ ids := (List.mem_cons.mp hj).resolve_left he
        obtain ⟨b1, _⟩ := hfr j he
        exact k2 j hj' l (b1.trans hl)

theorem nextBlock_frame {c : Cfg} {s s' : St} {ids : List Nat} (hg : Good c s []) (hs : nextBlock c s ids = .ok s') :
    (∀ j, j ∉ ids → s'.listings j = s.listings j ∧ s'.bids j = s.bids j) ∧
    (∀ j ∈ ids, (∃ l, s.listings j = some l ∧ l.close = s.now + 1) ∧ s'.listings j = none ∧ s'.bids j = none) := by
  simp only [nextBlock, bind_ok, ensure_ok, pure_ok] at hs
  obtain ⟨_, ht, _, hp, rfl⟩ := hs
  have h0 : Good c { s with now := s.now + 1, sched := upd s.sched (s.now + 1) [] } ids :=
    ⟨hg.dur, hg.st.tick hp ht, hg.lk, hg.mi⟩
  obtain ⟨k1, k2⟩ := closeAll_frame ids h0 (hp.nodup_iff.mpr (hg.st.nodup _))
  refine ⟨k1, fun j hj => ?_⟩
  obtain ⟨l, hl, hc, _⟩ := (hg.st.at_ _ _).mp (hp.mem_iff.mp hj)
  exact ⟨⟨l, hl, hc⟩, k2 j hj l hl⟩

theorem extend_bids (s : St) (i : Nat) (l : Listing) : (extend s i l).bids = s.bids := by
  unfold extend; split <;> rfl

theorem extend_listings (s : St) (i : Nat) (l : Listing) (hl : s.listings i = some l) :
    (∃ b, s.now + 40 ≤ b ∧ l.close ≤ b ∧ (extend s i l).listings i = some { l with close := b }) ∧
    (∀ j, j ≠ i → (extend s i l).listings j = s.listings j) ∧ (extend s i l).now = s.now := by
  unfold extend
  split
  · rename_i h
    exact ⟨⟨s.now + 40, Nat.le_refl _, by omega, upd_same _ _ _⟩, fun j hj => upd_ne _ _ hj, rfl⟩
  · rename_i h
    exact ⟨⟨l.close, by omega, Nat.le_refl _, hl⟩, fun j _ => rfl, rfl⟩

/-- How the winning bid of a listing can change. -/
theorem bids_frame {c : Cfg} {s s' : St} {op : Op} (hg : Good c s []) (he : Env c s op) (hs : step c s op = .ok s') (i : Nat) :
    s'.bids i = s.bids i ∨
    (∃ w x l, op = .bid w i x ∧ s.listings i = some l ∧ l.auction = true ∧ beats x l.price (s.bids i) = true ∧
      s'.bids i = some (w, x)) ∨
    (∃ ids, op = .nextBlock ids ∧ i ∈ ids ∧ (∃ l, s.listings i = some l ∧ l.close = s.now + 1) ∧
      s'.listings i = none ∧ s'.bids i = none) := by
  cases op with
  | list b w t y a p d m =>
    simp only [step, list, bind_ok, ensure_ok, pure_ok] at hs
    obtain ⟨_, hp, _, hv, roy, hr, _, hn, s1, h1, e, he, rfl⟩ := hs
    obtain ⟨⟨n, f, rfl⟩, _⟩ := hg.lk.list (l := ⟨b, a, p, e, t, y, w, roy, m⟩) hg.st.below hv h1 rfl rfl
    exact Or.inl rfl
  | updatePrice w j p =>
    simp only [step, updatePrice, bind_ok, okOr_ok, ensure_ok, pure_ok] at hs
    obtain ⟨_, _, l, _, _, _, _, _, rfl⟩ := hs
    exact Or.inl rfl
  | buy w j => exact Or.inl (by rw [(buy_frame hs hg he).1])
  | buyMulti w is => exact Or.inl (by rw [(buyMulti_frame he is hs hg).1])
  | bid w j x =>
    obtain ⟨l, h1, h2, hl, ha, hb, _, _, rfl, _⟩ := bid_ok' hs hg he
    rw [extend_bids]
    by_cases hj : i = j
    · subst hj
      exact Or.inr (Or.inl ⟨w, x, l, rfl, hl, ha, hb, upd_same _ _ _⟩)
    · exact Or.inl (upd_ne _ _ hj)
  | cancelSale w j =>
    obtain ⟨l, _, _, _, e, _⟩ := cancelSale_ok hs hg
    have hsoft : ∃ n f, unlockSoft (removeListing s j l) l.seller l.tokens = { removeListing s j l with nft := n, sft := f } := by
      cases l.tokens <;> exact ⟨_, _, rfl⟩
    obtain ⟨n, f, e'⟩ := hsoft
    rw [e, e']; exact Or.inl rfl
  | makeOffer w id n x a m => obtain ⟨_, _, _, _, _, rfl, _⟩ := makeOffer_ok' hs hg he; exact Or.inl rfl
  | cancelOffer w j => obtain ⟨_, _, _, _, _, rfl, _⟩ := cancelOffer_ok hs hg; exact Or.inl rfl
  | acceptOffer w j =>
    obtain ⟨o, _, _, s1, _, _, _, _, _, ⟨n, f, rfl⟩, rfl, _⟩ := acceptOffer_ok hs hg
    obtain ⟨⟨ls, sc, ix, e⟩, _⟩ := unlist_ok hg o.coll o.serial
    rw [e]; exact Or.inl rfl
  | registerMarket w a p =>
    simp only [step, registerMarket, bind_ok, ensure_ok, pure_ok] at hs
    obtain ⟨_, _, _, _, rfl⟩ := hs
    exact Or.inl rfl
  | setFeeTo f => cases hs; exact Or.inl rfl
  | nextBlock ids =>
    obtain ⟨k1, k2⟩ := nextBlock_frame hg hs
    by_cases hi : i ∈ ids
    · obtain ⟨a1, a2, a3⟩ := k2 i hi
      exact Or.inr (Or.inr ⟨ids, rfl, hi, a1, a2, a3⟩)
    · exact Or.inl (k1 i hi).2
  | nft op =>
    simp only [step, bind_ok, pure_ok] at hs
    obtain ⟨t, _, rfl⟩ := hs
    exact Or.inl rfl
  | sft op =>
    simp only [step, bind_ok, pure_ok] at hs
    obtain ⟨t, _, rfl⟩ := hs
    exact Or.inl rfl
  | assets op =>
    simp only [step, bind_ok, pure_ok] at hs
    obtain ⟨t, _, rfl⟩ := hs
    exact Or.inl rfl

/-! ## C32: auctions -/

/-- The amount of a standing bid. -/
def standing : Option (Acct × Nat) → Nat
  | some b => b.2
  | none => 0

/-- What the holder of a standing bid is owed if it is outbid. -/
def standingOf (b : Option (Acct × Nat)) (y : Acct) : Nat :=
  match b with
  | some b => if y = b.1 then b.2 else 0
  | none => 0

/-- C32: a bid is accepted only on an open auction, when it reaches the reserve price and exceeds the standing bid. It
moves exactly the bid from the bidder to the holding account and the standing bid from there back to the previous
bidder; no other balance changes. -/
theorem C32_bid {c : Cfg} {s s' : St} (h : Reach c (Env c) s) {who : Acct} {i x : Nat} (hw : who ≠ c.holds.pot)
    (hs : step c s (.bid who i x) = .ok s') :
    ∃ l, s.listings i = some l ∧ l.auction = true ∧ l.price ≤ x ∧ (∀ w y, s.bids i = some (w, y) → y < x) ∧
      s'.bids i = some (who, x) ∧
      (∀ y, s'.hs.ledger.bal l.asset y + (if y = who then x else 0) + (if y = c.holds.pot then standing (s.bids i) else 0) =
        s.hs.ledger.bal l.asset y + (if y = c.holds.pot then x else 0) + standingOf (s.bids i) y) ∧
      (∀ a, a ≠ l.asset → s'.hs.ledger.bal a = s.hs.ledger.bal a) := by
  have hg := h.good (fun _ _ h => h)
  obtain ⟨l, h1, h2, hl, ha, hb, e1, e2, rfl, _⟩ := bid_ok' hs hg hw
  obtain ⟨g1, g2, g3, g4, g5, g6⟩ := hg.mi.lst i l hl
  obtain ⟨p1, p2, p3⟩ := Holds.place_ok e1 hg.mi.hi hw
  obtain ⟨_, _, t3, t4⟩ := Ledger.transfer_ok p2
  have hhs : (extend { s with hs := h2, bids := upd s.bids i (some (who, x)) } i l).hs = h2 := by
    unfold extend; split <;> rfl
  refine ⟨l, hl, ha, ?_, ?_, by rw [extend_bids]; exact upd_same _ _ _, ?_, ?_⟩
  · cases hbb : s.bids i with
    | none => rw [hbb] at hb; simpa [beats] using hb
    | some b =>
      rw [hbb] at hb
      have h3 : b.2 < x := by simpa [beats] using hb
      have := (g6 b hbb).2
      omega
  · intro w y hy
    rw [hy] at hb
    simpa [beats] using hb
  · intro y
    rw [hhs]
    have t := t4 y
    cases hbb : s.bids i with
    | none =>
      rw [hbb] at e2; cases e2
      simp only [standing, standingOf]
      rw [ite_self]
      omega
    | some b =>
      rw [hbb] at e2
      have hb1 := (hg.mi.bid i b hbb).1
      obtain ⟨q1, _, q2, q3⟩ := Holds.release_ok e2 p1 hb1
      obtain ⟨_, _, _, u4⟩ := Ledger.transfer_ok q2
      have u := u4 y
      simp only [standing, standingOf]
      omega
  · intro a hne
    rw [hhs]
    have t := t3 a hne
    cases hbb : s.bids i with
    | none => rw [hbb] at e2; cases e2; exact t
    | some b =>
      rw [hbb] at e2
      obtain ⟨q1, _, q2, q3⟩ := Holds.release_ok e2 p1 (hg.mi.bid i b hbb).1
      obtain ⟨_, _, u3, _⟩ := Ledger.transfer_ok q2
      rw [u3 a hne]; exact t

example : (step cfg0 demo (.bid 3 1 7)).toOption.map (fun s => (s.bids 1, s.hs.ledger.bal 4 2, s.hs.ledger.bal 4 3)) =
    some (some (3, 7), 46, 34) ∧ (step cfg0 demo (.bid 3 1 6)).toOption = none := by decide +kernel

/-- C32: after an accepted bid the auction stays open for at least 40 more blocks and never closes earlier than before. -/
theorem C32_extended {c : Cfg} {s s' : St} (h : Reach c (Env c) s) {who : Acct} {i x : Nat} (hw : who ≠ c.holds.pot)
    (hs : step c s (.bid who i x) = .ok s') :
    ∃ l l', s.listings i = some l ∧ s'.listings i = some l' ∧ s.now + 40 ≤ l'.close ∧ l.close ≤ l'.close ∧
      l' = { l with close := l'.close } := by
  have hg := h.good (fun _ _ h => h)
  obtain ⟨l, h1, h2, hl, ha, hb, e1, e2, rfl, _⟩ := bid_ok' hs hg hw
  obtain ⟨⟨b, hb1, hb2, hb3⟩, _, _⟩ := extend_listings { s with hs := h2, bids := upd s.bids i (some (who, x)) } i l hl
  exact ⟨l, _, hl, hb3, hb1, hb2, rfl⟩

/-- C32: the winning bid of an open auction is at least its reserve price. -/
theorem C32_reserve {c : Cfg} {s : St} (h : Reach c (Env c) s) {i : Nat} {l : Listing} (hl : s.listings i = some l)
    {w : Acct} {x : Nat} (hb : s.bids i = some (w, x)) : l.auction = true ∧ l.price ≤ x :=
  ((h.good (fun _ _ h => h)).mi.lst i l hl).2.2.2.2.2 (w, x) hb

example : demo.bids 1 = some (2, 6) ∧ demo.bids 2 = some (3, 9) := by decide +kernel

/-- States reached from `s`. -/
inductive From (c : Cfg) (s : St) : St → Prop
  | refl : From c s s
  | step {t t' : St} {op : Op} : From c s t → Env c t op → step c t op = .ok t' → From c s t'

theorem From.reach {c : Cfg} {s t : St} (h : Reach c (Env c) s) (hf : From c s t) : Reach c (Env c) t := by
  induction hf with
  | refl => exact h
  | step _ he hs ih => exact ih.step he hs

/-- Ids are not reused: a listing that is closed stays closed. -/
def Closed (s : St) (i : Nat) : Prop := s.listings i = none ∧ i < s.nextListing

theorem buy_closed {c : Cfg} {t t' : St} {w : Acct} {j i : Nat} (h1 : buy c t w j = .ok t') (h2 : Good c t [])
    (h3 : w ≠ c.holds.pot) (h : Closed t i) : Closed t' i := by
  obtain ⟨l, L, _, _, _, _, _, ⟨n, f, e⟩, _⟩ := buy_ok h1 h2 h3
  rw [e]
  refine ⟨?_, h.2⟩
  change upd t.listings j none i = none
  rw [upd_apply]; split
  · rfl
  · exact h.1

theorem buyMulti_closed {c : Cfg} {w : Acct} {i : Nat} (hw : w ≠ c.holds.pot) : ∀ (is : List Nat) {t t' : St},
    buyMulti c w is t = .ok t' → Good c t [] → Closed t i → Closed t' i
  | [], _, _, h, _, hc => by cases h; exact hc
  | j :: is, t, t', h, hg, hc => by
    simp only [buyMulti, bind_ok] at h
    obtain ⟨t1, h5, h6⟩ := h
    obtain ⟨_, _, _, _, _, _, _, _, g⟩ := buy_ok h5 hg hw
    exact buyMulti_closed hw is h6 g (buy_closed h5 hg hw hc)

theorem unlockTransfer_next {c : Cfg} {t t' : St} {a b : Acct} {x : Tokens} (h : unlockTransfer c t a b x = .ok t') :
    t'.nextListing = t.nextListing := by
  cases x with
  | nft id ns =>
    simp only [unlockTransfer, bind_ok, ensure_ok, pure_ok] at h
    obtain ⟨_, _, t, _, rfl⟩ := h
    rfl
  | sft id xs =>
    simp only [unlockTransfer, bind_ok, pure_ok] at h
    obtain ⟨_, _, t, _, rfl⟩ := h
    rfl

theorem unlockSoft_next (t : St) (a : Acct) (x : Tokens) : (unlockSoft t a x).nextListing = t.nextListing := by
  cases x <;> rfl

theorem closeOne_next (c : Cfg) (t : St) (j : Nat) : (closeOne c t j).nextListing = t.nextListing := by
  unfold closeOne
  cases t.listings j with
  | none => rfl
  | some l =>
    dsimp only
    split
    · unfold closeAuction
      split
      · exact unlockSoft_next _ _ _
      · split
        · rename_i t' hs
          simp only [settle, bind_ok] at hs
          obtain ⟨h, _, e2⟩ := hs
          exact (unlockTransfer_next e2).trans rfl
        · unfold releaseSoft
          split <;> rfl
    · exact unlockSoft_next _ _ _

theorem closeAll_next (c : Cfg) : ∀ (ids : List Nat) (t : St), (ids.foldl (closeOne c) t).nextListing = t.nextListing
  | [], _ => rfl
  | j :: ids, t => by rw [List.foldl_cons, closeAll_next c ids, closeOne_next]

theorem unlockTransfer_asset {c : Cfg} {t t' : St} {a b : Acct} {x : Tokens} (h : unlockTransfer c t a b x = .ok t') :
    t'.assetOf = t.assetOf := by
  cases x with
  | nft id ns =>
    simp only [unlockTransfer, bind_ok, ensure_ok, pure_ok] at h
    obtain ⟨_, _, t, _, rfl⟩ := h
    rfl
  | sft id xs =>
    simp only [unlockTransfer, bind_ok, pure_ok] at h
    obtain ⟨_, _, t, _, rfl⟩ := h
    rfl

theorem unlockSoft_asset (t : St) (a : Acct) (x : Tokens) : (unlockSoft t a x).assetOf = t.assetOf := by
  cases x <;> rfl

theorem closeOne_asset (c : Cfg) (t : St) (j : Nat) : (closeOne c t j).assetOf = t.assetOf := by
  unfold closeOne
  cases t.listings j with
  | none => rfl
  | some l =>
    dsimp only
    split
    · unfold closeAuction
      split
      · exact unlockSoft_asset _ _ _
      · split
        · rename_i t' hs
          simp only [settle, bind_ok] at hs
          obtain ⟨h, _, e2⟩ := hs
          exact (unlockTransfer_asset e2).trans rfl
        · unfold releaseSoft
          split <;> rfl
    · exact unlockSoft_asset _ _ _

theorem closeAll_asset (c : Cfg) : ∀ (ids : List Nat) (t : St), (ids.foldl (closeOne c) t).assetOf = t.assetOf
  | [], _ => rfl
  | j :: ids, t => by rw [List.foldl_cons, closeAll_asset c ids, closeOne_asset]

theorem nextBlock_next {c : Cfg} {s s' : St} {ids : List Nat} (h : nextBlock c s ids = .ok s') : s'.nextListing = s.nextListing := by
  simp only [nextBlock, bind_ok, ensure_ok, pure_ok] at h
  obtain ⟨_, _, _, _, rfl⟩ := h
  exact closeAll_next c ids _

theorem extend_next (s : St) (i : Nat) (l : Listing) : (extend s i l).nextListing = s.nextListing := by
  unfold extend; split <;> rfl

theorem Closed.step {c : Cfg} {s s' : St} {op : Op} (hg : Good c s []) (he : Env c s op) (hs : Market.step c s op = .ok s')
    {i : Nat} (hc : Closed s i) : Closed s' i := by
  have hn := hc.1
  have hi := hc.2
  have hrem : ∀ (j : Nat), upd s.listings j none i = none := by
    intro j; rw [upd_apply]; split
    · rfl
    · exact hn
  cases op with
  | list b w t y a p d m =>
    simp only [Market.step, list, bind_ok, ensure_ok, pure_ok] at hs
    obtain ⟨_, hp, _, hv, roy, hr, _, _, s1, h1, e, he, rfl⟩ := hs
    obtain ⟨⟨n, f, rfl⟩, _⟩ := hg.lk.list (l := ⟨b, a, p, e, t, y, w, roy, m⟩) hg.st.below hv h1 rfl rfl
    exact ⟨(upd_ne _ _ (Nat.ne_of_lt hi)).trans hn, Nat.lt_succ_of_lt hi⟩
  | updatePrice w j p =>
    simp only [Market.step, updatePrice, bind_ok, okOr_ok, ensure_ok, pure_ok] at hs
    obtain ⟨_, _, l, hl, _, _, _, _, rfl⟩ := hs
    have hne : i ≠ j := by rintro rfl; rw [hn] at hl; cases hl
    exact ⟨(upd_ne _ _ hne).trans hn, hi⟩
  | buy w j => exact buy_closed hs hg he hc
  | buyMulti w is => exact buyMulti_closed he is hs hg hc
  | bid w j x =>
    obtain ⟨l, h1, h2, hl, _, _, _, _, rfl, _⟩ := bid_ok' hs hg he
    have hne : i ≠ j := by rintro rfl; rw [hn] at hl; cases hl
    obtain ⟨_, k2, _⟩ := extend_listings { s with hs := h2, bids := upd s.bids j (some (w, x)) } j l hl
    exact ⟨(k2 i hne).trans hn, by rw [extend_next]; exact hi⟩
  | cancelSale w j =>
    obtain ⟨l, _, _, _, e, _⟩ := cancelSale_ok hs hg
    have hsoft : ∃ n f, unlockSoft (removeListing s j l) l.seller l.tokens = { removeListing s j l with nft := n, sft := f } := by
      cases l.tokens <;> exact ⟨_, _, rfl⟩
    obtain ⟨n, f, e'⟩ := hsoft
    rw [e, e']; exact ⟨hrem j, hi⟩
  | makeOffer w id n x a m => obtain ⟨_, _, _, _, _, rfl, _⟩ := makeOffer_ok' hs hg he; exact hc
  | cancelOffer w j => obtain ⟨_, _, _, _, _, rfl, _⟩ := cancelOffer_ok hs hg; exact hc
  | acceptOffer w j =>
    obtain ⟨o, _, _, s1, _, _, _, _, _, ⟨n, f, rfl⟩, rfl, _⟩ := acceptOffer_ok hs hg
    obtain ⟨⟨ls, sc, ix, e⟩, _, k1, k2⟩ := unlist_ok hg o.coll o.serial
    refine ⟨?_, by rw [e]; exact hi⟩
    change (unlist s o.coll o.serial).listings i = none
    by_cases hk : s.nft.locks o.coll o.serial = some i
    · exact k1 i hk
    · exact (k2 i hk).trans hn
  | registerMarket w a p =>
    simp only [Market.step, registerMarket, bind_ok, ensure_ok, pure_ok] at hs
    obtain ⟨_, _, _, _, rfl⟩ := hs
    exact hc
  | setFeeTo f => cases hs; exact hc
  | nextBlock ids =>
    obtain ⟨k1, k2⟩ := nextBlock_frame hg hs
    refine ⟨?_, by rw [nextBlock_next hs]; exact hi⟩
    by_cases hid : i ∈ ids
    · exact (k2 i hid).2.1
    · exact (k1 i hid).1.trans hn
  | nft op =>
    simp only [Market.step, bind_ok, pure_ok] at hs
    obtain ⟨t, _, rfl⟩ := hs
    exact hc
  | sft op =>
    simp only [Market.step, bind_ok, pure_ok] at hs
    obtain ⟨t, _, rfl⟩ := hs
    exact hc
  | assets op =>
    simp only [Market.step, bind_ok, pure_ok] at hs
    obtain ⟨t, _, rfl⟩ := hs
    exact hc

theorem bids_from {c : Cfg} {s t : St} (h : Reach c (Env c) s) (hf : From c s t) {i : Nat} {w : Acct} {x : Nat}
    (hb : s.bids i = some (w, x)) : Closed t i ∨ ∃ w' x', t.bids i = some (w', x') ∧ x ≤ x' := by
  induction hf with
  | refl => exact Or.inr ⟨w, x, hb, Nat.le_refl _⟩
  | step hf' he hs ih =>
    rename_i t t' op
    have hg := (hf'.reach h).good (fun _ _ h => h)
    rcases ih with hc | ⟨w', x', h1, h2⟩
    · exact Or.inl (Closed.step hg he hs hc)
    · rcases bids_frame hg he hs i with h3 | ⟨w2, x2, l, _, _, _, h4, h5⟩ | ⟨ids, rfl, _, _, h4, _⟩
      · exact Or.inr ⟨w', x', h3.trans h1, h2⟩
      · rw [h1] at h4
        have : x' < x2 := by simpa [beats] using h4
        exact Or.inr ⟨w2, x2, h5, by omega⟩
      · exact Or.inl ⟨h4, by rw [nextBlock_next hs]; exact (hg.mi.bid i _ h1).2.2⟩

/-- C32: over any history, as long as the auction stays open its winning bid never disappears and never falls. -/
theorem C32_monotone {c : Cfg} {s t : St} (h : Reach c (Env c) s) (hf : From c s t) {i : Nat} {w : Acct} {x : Nat}
    (hb : s.bids i = some (w, x)) (ho : t.listings i ≠ none) : ∃ w' x', t.bids i = some (w', x') ∧ x ≤ x' := by
  rcases bids_from h hf hb with h1 | h1
  · exact absurd h1.1 ho
  · exact h1

/-- C32: the only thing that changes a winning bid before the auction closes is a strictly higher bid. -/
theorem C32_only_bids {c : Cfg} {s s' : St} (h : Reach c (Env c) s) {op : Op} (he : Env c s op) (hs : step c s op = .ok s')
    {i : Nat} {w : Acct} {x : Nat} (hb : s.bids i = some (w, x)) (hne : s'.bids i ≠ some (w, x)) :
    (∃ w' x', op = .bid w' i x' ∧ x < x' ∧ s'.bids i = some (w', x')) ∨
    (∃ ids l, op = .nextBlock ids ∧ s.listings i = some l ∧ l.close = s.now + 1 ∧ s'.listings i = none) := by
  rcases bids_frame (h.good (fun _ _ h => h)) he hs i with h3 | ⟨w2, x2, l, e, _, _, h4, h5⟩ | ⟨ids, e, _, ⟨l, h6, h7⟩, h4, _⟩
  · exact absurd (h3.trans hb) hne
  · rw [hb] at h4
    exact Or.inl ⟨w2, x2, e, by simpa [beats] using h4, h5⟩
  · exact Or.inr ⟨ids, l, e, h6, h7, h4⟩

example : ((step cfg0 demo (.bid 3 1 7)).toOption.map (fun s => s.bids 1)) = some (some (3, 7)) ∧ demo.bids 1 = some (2, 6) := by
  decide +kernel

/-! ## C81: listings close on time -/

/-- C81: an open listing's closing block lies strictly ahead, so no listing outlives its closing block. -/
theorem C81_closes {c : Cfg} {s : St} (h : Reach c (Env c) s) {i : Nat} {l : Listing} (hl : s.listings i = some l) :
    s.now < l.close := by
  have := (h.good (fun _ _ h => h)).st.future i l hl
  simpa using this

example : demo.now < ((demo.listings 1).map Listing.close).getD 0 := by decide +kernel

/-- C81: a listing with a closing block ahead is not closed by the passing of a block. -/
theorem C81_not_early {c : Cfg} {s s' : St} (h : Reach c (Env c) s) {ids : List Nat} (hs : step c s (.nextBlock ids) = .ok s')
    {i : Nat} {l : Listing} (hl : s.listings i = some l) (hc : s.now + 1 < l.close) : s'.listings i = some l ∧ s'.bids i = s.bids i := by
  obtain ⟨k1, k2⟩ := nextBlock_frame (h.good (fun _ _ h => h)) hs
  have hn : i ∉ ids := by
    intro hm
    obtain ⟨⟨l', h1, h2⟩, _⟩ := k2 i hm
    rw [hl] at h1; cases h1
    omega
  obtain ⟨a1, a2⟩ := k1 i hn
  exact ⟨a1.trans hl, a2⟩

/-- C81: closed listings stay closed. -/
theorem C81_no_reopen {c : Cfg} {s t : St} (h : Reach c (Env c) s) (hf : From c s t) {i : Nat} (hi : i < s.nextListing)
    (hn : s.listings i = none) : t.listings i = none := by
  have : Closed t i := by
    induction hf with
    | refl => exact ⟨hn, hi⟩
    | step hf' he hs ih => exact Closed.step ((hf'.reach h).good (fun _ _ h => h)) he hs ih
  exact this.1

/-! ## C33: what the marketplace holds -/

/-- C33 (the part that holds): what the marketplace holds for an account in an asset is exactly the sum of the account's
open offers and of the bids recorded for it. -/
theorem C33_exact {c : Cfg} {s : St} (h : Reach c (Env c) s) (a : AssetId) (w : Acct) :
    ∃ m k, TotalIs (fun i => match s.offers i with
        | some o => if o.asset = a ∧ o.buyer = w then o.amount else 0
        | none => 0) m ∧
      TotalIs (fun i => match s.bids i with
        | some b => if s.assetOf i = a ∧ b.1 = w then b.2 else 0
        | none => 0) k ∧
      Holds.holdOf (s.hs.holds a w) c.pid = m + k := by
  obtain ⟨m, k, h1, h2, h3⟩ := (h.good (fun _ _ h => h)).mi.exact a w
  refine ⟨m, k, h1.congr fun i => ?_, h2.congr fun i => ?_, h3⟩
  · unfold offerAmt; cases s.offers i <;> rfl
  · unfold bidAmt; cases s.bids i <;> rfl

/-- The recorded bid asset is the listing's payment asset. -/
theorem C33_asset {c : Cfg} {s : St} (h : Reach c (Env c) s) {i : Nat} {l : Listing} (hl : s.listings i = some l) :
    s.assetOf i = l.asset := ((h.good (fun _ _ h => h)).mi.lst i l hl).1

/-- C33: a bid recorded for a closed listing can never be touched again. -/
theorem C33_stuck {c : Cfg} {s t : St} (h : Reach c (Env c) s) (hf : From c s t) {i : Nat} (hn : s.listings i = none)
    {b : Acct × Nat} (hb : s.bids i = some b) : t.bids i = some b := by
  have hi : i < s.nextListing := ((h.good (fun _ _ h => h)).mi.bid i b hb).2.2
  have : Closed t i ∧ t.bids i = some b := by
    induction hf with
    | refl => exact ⟨⟨hn, hi⟩, hb⟩
    | step hf' he hs ih =>
      rename_i t t' op
      have hg := (hf'.reach h).good (fun _ _ h => h)
      refine ⟨Closed.step hg he hs ih.1, ?_⟩
      rcases bids_frame hg he hs i with h3 | ⟨_, _, l, _, h4, _⟩ | ⟨_, _, _, ⟨l, h4, _⟩, _⟩
      · exact h3.trans ih.2
      · rw [ih.1.1] at h4; cases h4
      · rw [ih.1.1] at h4; cases h4
  exact this.2

/-- The recorded payment asset of a listing never changes. -/
theorem assetOf_frame {c : Cfg} {s s' : St} {op : Op} (hg : Good c s []) (he : Env c s op) (hs : step c s op = .ok s') {i : Nat}
    {a : AssetId} (h : i < s.nextListing ∧ s.assetOf i = a) : i < s'.nextListing ∧ s'.assetOf i = a := by
  cases op with
  | list b w t y a' p d m =>
    simp only [step, list, bind_ok, ensure_ok, pure_ok] at hs
    obtain ⟨_, hp, _, hv, roy, hr, _, hn, s1, h1, e, he, rfl⟩ := hs
    obtain ⟨⟨n, f, rfl⟩, _⟩ := hg.lk.list (l := ⟨b, a', p, e, t, y, w, roy, m⟩) hg.st.below hv h1 rfl rfl
    exact ⟨Nat.lt_succ_of_lt h.1, (upd_ne _ _ (Nat.ne_of_lt h.1)).trans h.2⟩
  | updatePrice w j p =>
    simp only [step, updatePrice, bind_ok, okOr_ok, ensure_ok, pure_ok] at hs
    obtain ⟨_, _, l, _, _, _, _, _, rfl⟩ := hs
    exact h
  | buy w j => obtain ⟨l, L, _, _, _, _, _, ⟨n, f, e⟩, _⟩ := buy_ok hs hg he; rw [e]; exact h
  | buyMulti w is =>
    have key : ∀ (is : List Nat) {t t' : St}, buyMulti c w is t = .ok t' → Good c t [] → i < t.nextListing ∧ t.assetOf i = a →
        i < t'.nextListing ∧ t'.assetOf i = a := by
      intro is
      induction is with
      | nil => intro t t' h1 _ h2; cases h1; exact h2
      | cons j is ih =>
        intro t t' h1 h2 h3
        simp only [buyMulti, bind_ok] at h1
        obtain ⟨t1, h5, h6⟩ := h1
        obtain ⟨l, L, _, _, _, _, _, ⟨n, f, e⟩, g⟩ := buy_ok h5 h2 he
        exact ih h6 g (by rw [e]; exact h3)
    exact key is hs hg h
  | bid w j x =>
    obtain ⟨l, h1, h2, hl, _, _, _, _, rfl, _⟩ := bid_ok' hs hg he
    unfold extend
    split <;> exact h
  | cancelSale w j =>
    obtain ⟨l, _, _, _, e, _⟩ := cancelSale_ok hs hg
    have hsoft : ∃ n f, unlockSoft (removeListing s j l) l.seller l.tokens = { removeListing s j l with nft := n, sft := f } := by
      cases l.tokens <;> exact ⟨_, _, rfl⟩
    obtain ⟨n, f, e'⟩ := hsoft
    rw [e, e']; exact h
  | makeOffer w id n x a m => obtain ⟨_, _, _, _, _, rfl, _⟩ := makeOffer_ok' hs hg he; exact h
  | cancelOffer w j => obtain ⟨_, _, _, _, _, rfl, _⟩ := cancelOffer_ok hs hg; exact h
  | acceptOffer w j =>
    obtain ⟨o, _, _, s1, _, _, _, _, _, ⟨n, f, rfl⟩, rfl, _⟩ := acceptOffer_ok hs hg
    obtain ⟨⟨ls, sc, ix, e⟩, _⟩ := unlist_ok hg o.coll o.serial
    rw [e]; exact h
  | registerMarket w a p =>
    simp only [step, registerMarket, bind_ok, ensure_ok, pure_ok] at hs
    obtain ⟨_, _, _, _, rfl⟩ := hs
    exact h
  | setFeeTo f => cases hs; exact h
  | nextBlock ids =>
    refine ⟨by rw [nextBlock_next hs]; exact h.1, ?_⟩
    simp only [step, nextBlock, bind_ok, ensure_ok, pure_ok] at hs
    obtain ⟨_, _, _, _, rfl⟩ := hs
    rw [closeAll_asset]; exact h.2
  | nft op =>
    simp only [step, bind_ok, pure_ok] at hs
    obtain ⟨t, _, rfl⟩ := hs
    exact h
  | sft op =>
    simp only [step, bind_ok, pure_ok] at hs
    obtain ⟨t, _, rfl⟩ := hs
    exact h
  | assets op =>
    simp only [step, bind_ok, pure_ok] at hs
    obtain ⟨t, _, rfl⟩ := hs
    exact h

/-- No offer is accepted for a token that is on auction. -/
def NoAuctionAccept (c : Cfg) (s : St) (op : Op) : Prop :=
  Env c s op ∧ ∀ w i o, op = .acceptOffer w i → s.offers i = some o → onAuction s o.coll o.serial = false

/-- An auction with a bid stays open until it is closed by the block hook, unless an offer for its token is accepted. -/
theorem auction_frame {c : Cfg} {s s' : St} {op : Op} (hg : Good c s []) (he : NoAuctionAccept c s op) (hs : step c s op = .ok s')
    {i : Nat} {l : Listing} {b : Acct × Nat} (hl : s.listings i = some l) (ha : l.auction = true) (hb : s.bids i = some b) :
    s'.listings i ≠ none ∨ s'.bids i = none := by
  have same : ∀ {f : Book}, f i = s.listings i → f i ≠ none := fun hf => by rw [hf, hl]; simp
  cases op with
  | list b w t y a p d m =>
    simp only [step, list, bind_ok, ensure_ok, pure_ok] at hs
    obtain ⟨_, hp, _, hv, roy, hr, _, hn, s1, h1, e, he, rfl⟩ := hs
    obtain ⟨⟨n, f, rfl⟩, _⟩ := hg.lk.list (l := ⟨b, a, p, e, t, y, w, roy, m⟩) hg.st.below hv h1 rfl rfl
    exact Or.inl (same (upd_ne _ _ (Nat.ne_of_lt (hg.st.below i l hl))))
  | updatePrice w j p =>
    simp only [step, updatePrice, bind_ok, okOr_ok, ensure_ok, pure_ok] at hs
    obtain ⟨_, _, l, _, _, _, _, _, rfl⟩ := hs
    refine Or.inl ?_
    by_cases hj : i = j
    · subst hj
      change upd s.listings i _ i ≠ none
      rw [upd_same]; simp
    · exact same (upd_ne _ _ hj)
  | buy w j => exact Or.inl (same (((buy_frame hs hg he.1).2 i l hl ha).trans hl.symm))
  | buyMulti w is => exact Or.inl (same (((buyMulti_frame he.1 is hs hg).2 i l hl ha).trans hl.symm))
  | bid w j x =>
    obtain ⟨l', h1, h2, hl', _, _, _, _, rfl, _⟩ := bid_ok' hs hg he.1
    obtain ⟨⟨b', _, _, k1⟩, k2, _⟩ := extend_listings { s with hs := h2, bids := upd s.bids j (some (w, x)) } j l' hl'
    refine Or.inl ?_
    by_cases hj : i = j
    · subst hj; rw [k1]; simp
    · exact same (k2 i hj)
  | cancelSale w j =>
    obtain ⟨l', hl', _, hnb, e, _⟩ := cancelSale_ok hs hg
    have hsoft : ∃ n f, unlockSoft (removeListing s j l') l'.seller l'.tokens =
        { removeListing s j l' with nft := n, sft := f } := by
      cases l'.tokens <;> exact ⟨_, _, rfl⟩
    obtain ⟨n, f, e'⟩ := hsoft
    have hj : i ≠ j := by
      rintro rfl
      rw [hl] at hl'; cases hl'
      rw [hnb ha] at hb; cases hb
    rw [e, e']
    exact Or.inl (same (upd_ne _ _ hj))
  | makeOffer w id n x a m => obtain ⟨_, _, _, _, _, rfl, _⟩ := makeOffer_ok' hs hg he.1; exact Or.inl (same rfl)
  | cancelOffer w j => obtain ⟨_, _, _, _, _, rfl, _⟩ := cancelOffer_ok hs hg; exact Or.inl (same rfl)
  | acceptOffer w j =>
    obtain ⟨o, _, _, s1, ho, _, _, _, _, ⟨n, f, rfl⟩, rfl, _⟩ := acceptOffer_ok hs hg
    obtain ⟨⟨ls, sc, ix, e⟩, _, k1, k2⟩ := unlist_ok hg o.coll o.serial
    have hk : s.nft.locks o.coll o.serial ≠ some i := by
      intro hk
      have := he.2 w j o rfl ho
      unfold onAuction at this
      rw [hk] at this
      simp [hl, ha] at this
    refine Or.inl ?_
    change (unlist s o.coll o.serial).listings i ≠ none
    exact same (k2 i hk)
  | registerMarket w a p =>
    simp only [step, registerMarket, bind_ok, ensure_ok, pure_ok] at hs
    obtain ⟨_, _, _, _, rfl⟩ := hs
    exact Or.inl (same rfl)
  | setFeeTo f => cases hs; exact Or.inl (same rfl)
  | nextBlock ids =>
    obtain ⟨k1, k2⟩ := nextBlock_frame hg hs
    by_cases hi : i ∈ ids
    · exact Or.inr (k2 i hi).2.2
    · exact Or.inl (same (k1 i hi).1)
  | nft op =>
    simp only [step, bind_ok, pure_ok] at hs
    obtain ⟨t, _, rfl⟩ := hs
    exact Or.inl (same rfl)
  | sft op =>
    simp only [step, bind_ok, pure_ok] at hs
    obtain ⟨t, _, rfl⟩ := hs
    exact Or.inl (same rfl)
  | assets op =>
    simp only [step, bind_ok, pure_ok] at hs
    obtain ⟨t, _, rfl⟩ := hs
    exact Or.inl (same rfl)

theorem bids_open {c : Cfg} {s s' : St} {op : Op} (hg : Good c s []) (he : NoAuctionAccept c s op) (hs : step c s op = .ok s')
    (hb : ∀ i b, s.bids i = some b → s.listings i ≠ none) : ∀ i b, s'.bids i = some b → s'.listings i ≠ none := by
  intro i b hb'
  have old : ∀ {b0}, s.bids i = some b0 → s'.listings i ≠ none := by
    intro b0 h0
    cases hl : s.listings i with
    | none => exact absurd hl (hb i b0 h0)
    | some l =>
      rcases auction_frame hg he hs hl ((hg.mi.lst i l hl).2.2.2.2.2 b0 h0).1 h0 with h1 | h1
      · exact h1
      · rw [h1] at hb'; cases hb'
  rcases bids_frame hg he.1 hs i with h3 | ⟨w, x, l, rfl, h4, _⟩ | ⟨_, _, _, _, _, h4⟩
  · exact old (h3.symm.trans hb')
  · obtain ⟨l', h1, h2, hl', _, _, _, _, rfl, _⟩ := bid_ok' hs hg he.1
    obtain ⟨⟨b', _, _, k1⟩, _, _⟩ := extend_listings { s with hs := h2, bids := upd s.bids i (some (w, x)) } i l' hl'
    rw [k1]; simp
  · rw [h4] at hb'; cases hb'

/-- C33 restricted to histories where no offer is accepted for a token on auction: what the marketplace holds for an
account is exactly its open offers and its winning bids on open auctions. Missing: accepting an offer, made before the
auction started, on a token being auctioned (see `C33_refuted`). -/
theorem C33_partial {c : Cfg} {s : St} (h : Reach c (NoAuctionAccept c) s) (a : AssetId) (w : Acct) :
    ∃ m k, TotalIs (fun i => match s.offers i with
        | some o => if o.asset = a ∧ o.buyer = w then o.amount else 0
        | none => 0) m ∧
      TotalIs (fun i => match s.listings i, s.bids i with
        | some l, some b => if l.asset = a ∧ b.1 = w then b.2 else 0
        | _, _ => 0) k ∧
      Holds.holdOf (s.hs.holds a w) c.pid = m + k := by
  have hg := h.good (fun _ _ h => h.1)
  have hop : ∀ i b, s.bids i = some b → s.listings i ≠ none := by
    clear hg
    induction h with
    | init hs => intro i b hb; rw [hs.bids i] at hb; cases hb
    | step hr he hs ih => exact bids_open (hr.good (fun _ _ h => h.1)) he hs ih
  obtain ⟨m, k, h1, h2, h3⟩ := hg.mi.exact a w
  refine ⟨m, k, h1.congr fun i => ?_, h2.congr fun i => ?_, h3⟩
  · unfold offerAmt; cases s.offers i <;> rfl
  · unfold bidAmt
    cases hb : s.bids i with
    | none => cases s.listings i <;> rfl
    | some b =>
      cases hl : s.listings i with
      | none => exact absurd hl (hop i b hb)
      | some l => dsimp only; rw [(hg.mi.lst i l hl).1]

/-- C33: whoever made an offer can always cancel it and gets exactly the offered amount back. -/
theorem C33_cancel_offer {c : Cfg} {s : St} (h : Reach c (Env c) s) {i : Nat} {o : Offer} (ho : s.offers i = some o) :
    ∃ s', step c s (.cancelOffer o.buyer i) = .ok s' ∧ s'.offers = upd s.offers i none ∧
      (∀ y, s'.hs.ledger.bal o.asset y + (if y = c.holds.pot then o.amount else 0) =
        s.hs.ledger.bal o.asset y + if y = o.buyer then o.amount else 0) ∧
      (∀ a, a ≠ o.asset → s'.hs.ledger.bal a = s.hs.ledger.bal a) := by
  have hg := h.good (fun _ _ h => h)
  obtain ⟨o1, o2, o3, o4⟩ := hg.mi.offer i o ho
  obtain ⟨m, k, h1, h2, h3⟩ := hg.mi.exact o.asset o.buyer
  have hle : o.amount ≤ m := by
    have := h1.le i
    simpa [offerAmt, ho] using this
  obtain ⟨t, ht⟩ := release_succeeds (p := c.pid) (w := o.buyer) (a := o.asset) (amt := o.amount) hg.mi.hi o2 (by omega) o1
  have hs : step c s (.cancelOffer o.buyer i) = .ok { s with
      hs := t
      offers := upd s.offers i none
      tokenOffers := upd s.tokenOffers o.coll
          (upd (s.tokenOffers o.coll) o.serial ((s.tokenOffers o.coll o.serial).erase i)) } := by
    simp only [step, cancelOffer, removeOffer, bind_ok, okOr_ok, ensure_ok, pure_ok]
    exact ⟨o, ho, (), rfl, t, ht, (), Or.inr ((hg.mi.mem i _ _).mpr ⟨o, ho, rfl, rfl⟩), rfl⟩
  refine ⟨_, hs, rfl, ?_⟩
  obtain ⟨_, _, q2, _⟩ := Holds.release_ok ht hg.mi.hi o1
  obtain ⟨_, _, u3, u4⟩ := Ledger.transfer_ok q2
  exact ⟨u4, u3⟩

example : ((step cfg0 demo (.cancelOffer 2 0)).toOption.map (fun s => (s.offers 0, s.hs.ledger.bal 4 2))) = some (none, 44) ∧
    demo.hs.ledger.bal 4 2 = 40 := by decide +kernel

/-- Account 1 auctions token 3, for which account 2 had made an offer; account 3 bids 10; account 1 accepts the offer. -/
def strandOps : List Op := [.list true 1 (.nft 100 [3]) none 4 5 none none, .bid 3 3 10, .acceptOffer 1 0]

def strand : St := exec cfg0 demo strandOps

theorem strand_reach : Reach cfg0 (Env cfg0) strand := by
  refine exec_reach _ demo_reach ?_
  simp only [strandOps, List.forall_mem_cons, Env, cfg0]
  exact ⟨fun _ => by decide, fun _ => by decide, fun _ => trivial, fun _ h => nomatch h⟩

theorem asset_from {s t : St} {c : Cfg} {i : Nat} {a : AssetId} (h : Reach c (Env c) s) (hf : From c s t)
    (h0 : i < s.nextListing ∧ s.assetOf i = a) : i < t.nextListing ∧ t.assetOf i = a := by
  induction hf with
  | refl => exact h0
  | step hf' he hs ih => exact assetOf_frame ((hf'.reach h).good (fun _ _ h => h)) he hs ih

/-- C33 as stated is false: after an offer is accepted for a token on auction, the auction is gone but its winning bid
stays on hold, and no later operation ever gives it back (`C33_stuck`). -/
theorem C33_refuted : ∃ s, Reach cfg0 (Env cfg0) s ∧ s.listings 3 = none ∧ s.bids 3 = some (3, 10) ∧
    (∀ i, s.offers i = none) ∧ s.bids 2 = some (3, 9) ∧ Holds.holdOf (s.hs.holds 4 3) cfg0.pid = 19 ∧
    ∀ t, From cfg0 s t → t.bids 3 = some (3, 10) ∧ 10 ≤ Holds.holdOf (t.hs.holds 4 3) cfg0.pid := by
  refine ⟨strand, strand_reach, by decide +kernel, by decide +kernel, fun i => ?_, by decide +kernel, by decide +kernel,
    fun t ht => ?_⟩
  · cases i with
    | zero => decide +kernel
    | succ i =>
      cases hi : strand.offers (i + 1) with
      | none => rfl
      | some o =>
        have h1 := ((strand_reach.good (fun _ _ h => h)).mi.offer _ o hi).2.2.2
        have h2 : strand.nextOffer = 1 := by decide +kernel
        omega
  · have hb : t.bids 3 = some (3, 10) := C33_stuck strand_reach ht (by decide +kernel) (by decide +kernel)
    refine ⟨hb, ?_⟩
    have hr := ht.reach strand_reach
    obtain ⟨m, k, _, h2, h3⟩ := (hr.good (fun _ _ h => h)).mi.exact 4 3
    have ha : t.assetOf 3 = 4 := (asset_from strand_reach ht (by decide +kernel)).2
    have := h2.le 3
    rw [hb] at this
    simp only [bidAmt, ha] at this
    rw [h3]
    have h5 : (if (4 : Nat) = 4 ∧ (3 : Nat) = 3 then (10 : Nat) else 0) = 10 := by decide
    have h6 : (10 : Nat) ≤ k := h5 ▸ this
    omega

/-! ## C82: outbidding -/

/-- C82 (the part that holds): a funded bid that beats the standing bid is accepted when the standing bid is positive.
Missing: standing bids of zero (see `C82_refuted`). -/
theorem C82_outbid_partial {c : Cfg} {s : St} (h : Reach c (Env c) s) {i : Nat} {l : Listing} (hl : s.listings i = some l)
    (ha : l.auction = true) {who : Acct} {x : Nat} (hw : who ≠ c.holds.pot) (hx : l.price ≤ x)
    (hb : ∀ w y, s.bids i = some (w, y) → 0 < y ∧ y < x) (hbal : x ≤ s.hs.ledger.bal l.asset who)
    (hroom : Holds.has (s.hs.holds l.asset who) c.pid = true ∨ (s.hs.holds l.asset who).length < c.holds.maxHolds) :
    ∃ s', step c s (.bid who i x) = .ok s' := by
  have hg := h.good (fun _ _ h => h)
  have hi := hg.mi.hi
  have hu := hi.sound.bal_lt l.asset who
  have h1 : ∃ h1, Holds.place c.holds s.hs c.pid who l.asset x = .ok h1 := by
    obtain ⟨n, hn, hbk⟩ := hi.backed l.asset
    have e1 : Holds.holdOf (s.hs.holds l.asset who) c.pid ≤ Holds.sumOf (s.hs.holds l.asset who) := Holds.holdOf_le
    have e2 := hn.le who
    have e3 := ((hi.sound l.asset).1).le₂ (a := who) (b := c.holds.pot) hw
    have e4 := (hi.sound l.asset).2
    have hinc : ∃ E, Holds.increase c.holds.maxHolds (s.hs.holds l.asset who) c.pid x = .ok E := by
      unfold Holds.increase
      by_cases hh : Holds.has (s.hs.holds l.asset who) c.pid = true
      · rw [if_pos hh, ensure_pos (by omega)]
        exact ⟨_, rfl⟩
      · rw [if_neg hh, ensure_pos (hroom.resolve_left hh)]
        exact ⟨_, rfl⟩
    obtain ⟨E, hE⟩ := hinc
    have ht : ∃ L, s.hs.ledger.transfer l.asset who c.holds.pot x = .ok L := by
      unfold Ledger.transfer
      rw [if_pos hbal]
      exact ⟨_, rfl⟩
    obtain ⟨L, hL⟩ := ht
    refine ⟨Holds.setHolds s.hs L l.asset who E, ?_⟩
    simp only [Holds.place, bind_ok, pure_ok]
    exact ⟨E, hE, L, hL, rfl⟩
  obtain ⟨h1, e1⟩ := h1
  obtain ⟨p1, p2, p3⟩ := Holds.place_ok e1 hi hw
  have h2 : ∃ h2, refund c h1 l.asset (s.bids i) = .ok h2 := by
    cases hbb : s.bids i with
    | none => exact ⟨h1, rfl⟩
    | some b =>
      obtain ⟨m, k, _, g2, g3⟩ := hg.mi.exact l.asset b.1
      have g4 := g2.le i
      rw [hbb, (hg.mi.lst i l hl).1] at g4
      have g5 : b.2 ≤ k := by simpa [bidAmt] using g4
      have g6 := p3 l.asset b.1 c.pid
      have hz := hb b.1 b.2 hbb
      have hle : b.2 ≤ Holds.holdOf (h1.holds l.asset b.1) c.pid := by omega
      exact release_succeeds p1 hz.1 hle (hg.mi.bid i b hbb).1
  obtain ⟨h2, e2⟩ := h2
  refine ⟨extend { s with
    hs := h2
    bids := upd s.bids i (some (who, x)) } i l, ?_⟩
  simp only [step, bid, bind_ok, okOr_ok, ensure_ok, pure_ok]
  refine ⟨(), by omega, l, hl, (), ha, (), ?_, h1, e1, h2, e2, rfl⟩
  cases hbb : s.bids i with
  | none => simpa [beats] using hx
  | some b => simpa [beats] using (hb b.1 b.2 hbb).2

example : ∃ s', step cfg0 demo (.bid 3 1 20) = .ok s' := by
  refine C82_outbid_partial (l := (demo.listings 1).get (by decide +kernel)) demo_reach (by decide +kernel) (by decide +kernel)
    (by decide) (by decide +kernel) (fun w y hy => ?_) (by decide +kernel) (by decide +kernel)
  have : demo.bids 1 = some (2, 6) := by decide +kernel
  rw [this] at hy; cases hy
  decide

/-- Account 1 auctions tokens 0 and 1 without reserve, account 2 bids 0 on both, account 3 outbids it on the first. -/
def zeroOps : List Op :=
  [.nft (.create 1 5 none none none false), .list true 1 (.nft 100 [0]) none 4 0 none none,
   .list true 1 (.nft 100 [1]) none 4 0 none none, .bid 2 0 0, .bid 2 1 0, .bid 3 0 1]

def zero : St := exec cfg0 g0 zeroOps

theorem zero_reach : Reach cfg0 (Env cfg0) zero := by
  refine exec_reach _ (.init genesis_g0) ?_
  simp only [zeroOps, List.forall_mem_cons, Env, cfg0, NftOutside, Nft.Bridged]
  exact ⟨fun _ => trivial, fun _ => by decide, fun _ => by decide, fun _ => by decide, fun _ => by decide, fun _ => by decide,
    fun _ h => nomatch h⟩

/-- C82 as stated is false: a bid of zero by account 2 stands on an open auction and every bid by anyone else, however
high, is refused. -/
theorem C82_refuted : ∃ s l, Reach cfg0 (Env cfg0) s ∧ s.listings 1 = some l ∧ l.auction = true ∧ s.bids 1 = some (2, 0) ∧
    ∀ who x s', who ≠ 2 → who ≠ cfg0.holds.pot → step cfg0 s (.bid who 1 x) ≠ .ok s' := by
  refine ⟨zero, (zero.listings 1).get (by decide +kernel), zero_reach, by decide +kernel, by decide +kernel, by decide +kernel,
    fun who x s' h2 hw hs => ?_⟩
  obtain ⟨l, a1, a2, hl, _, _, e1, e2, _⟩ := bid_ok' hs (zero_reach.good (fun _ _ h => h)) hw
  have hl' : zero.listings 1 = some ((zero.listings 1).get (by decide +kernel)) := by decide +kernel
  rw [hl'] at hl
  have hq := Option.some.inj hl
  have hb : zero.bids 1 = some (2, 0) := by decide +kernel
  have hass : l.asset = 4 := by rw [← hq]; decide +kernel
  rw [hb] at e2
  rw [hass] at e1 e2
  simp only [Holds.place, bind_ok, pure_ok] at e1
  obtain ⟨E, _, L, _, rfl⟩ := e1
  simp only [refund, Holds.release, Holds.decrease, bind_ok, ensure_ok] at e2
  obtain ⟨_, ⟨_, hh, _⟩, _⟩ := e2
  have hz : (Holds.setHolds zero.hs L 4 who E).holds 4 2 = [] := by
    rw [Holds.holds_set, if_neg (fun hx => h2 hx.2.symm)]
    decide +kernel
  rw [hz] at hh
  cases hh

end Verif.Market
