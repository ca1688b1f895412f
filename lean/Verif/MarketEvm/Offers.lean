import Verif.MarketEvm.Props

/-!
# Marketplace number zero; offers and what the contract reports (C174 to C176)
-/

namespace Verif.MarketEvm

open Market (Tokens Listing Offer Op)

/-! ## No marketplace has number zero -/

/-- /repo/pallet/marketplace/src/lib.rs:77-79: the numbers of marketplaces start at one. -/
def FromOne (s : Market.St) : Prop := s.markets 0 = none ∧ 1 ≤ s.nextMarket

/-- States after any further operations of anybody. -/
inductive Later (c : Market.Cfg) (s : Market.St) : Market.St → Prop
  | refl : Later c s s
  | step {t t' : Market.St} {op : Op} : Later c s t → Market.step c t op = .ok t' → Later c s t'

/-- Marketplaces and offers are the same. -/
structure Same (s t : Market.St) : Prop where
  markets : t.markets = s.markets
  nextMarket : t.nextMarket = s.nextMarket
  offers : t.offers = s.offers
  nextOffer : t.nextOffer = s.nextOffer

theorem Same.refl (s : Market.St) : Same s s := ⟨rfl, rfl, rfl, rfl⟩

theorem Same.trans {s t u : Market.St} (h : Same s t) (k : Same t u) : Same s u :=
  ⟨k.markets.trans h.markets, k.nextMarket.trans h.nextMarket, k.offers.trans h.offers, k.nextOffer.trans h.nextOffer⟩

theorem lockTokens_same {s t : Market.St} {w : Acct} {i : Nat} {x : Tokens} (h : Market.lockTokens s w i x = .ok t) :
    Same s t := by
  cases x <;> (simp only [Market.lockTokens, bind_ok, pure_ok] at h; obtain ⟨_, _, rfl⟩ := h; exact ⟨rfl, rfl, rfl, rfl⟩)

theorem unlockTokens_same {s t : Market.St} {w : Acct} {x : Tokens} (h : Market.unlockTokens s w x = .ok t) :
    Same s t := by
  cases x with
  | nft id ns => cases Except.ok.inj h; exact ⟨rfl, rfl, rfl, rfl⟩
  | sft id xs =>
    simp only [Market.unlockTokens, bind_ok, pure_ok] at h; obtain ⟨_, _, rfl⟩ := h; exact ⟨rfl, rfl, rfl, rfl⟩

theorem unlockSoft_same (s : Market.St) (w : Acct) (x : Tokens) : Same s (Market.unlockSoft s w x) := by
  cases x <;> exact ⟨rfl, rfl, rfl, rfl⟩

theorem unlockTransfer_same {c : Market.Cfg} {s t : Market.St} {w y : Acct} {x : Tokens}
    (h : Market.unlockTransfer c s w y x = .ok t) : Same s t := by
  cases x with
  | nft id ns =>
    simp only [Market.unlockTransfer, bind_ok, pure_ok] at h; obtain ⟨_, _, _, _, rfl⟩ := h; exact ⟨rfl, rfl, rfl, rfl⟩
  | sft id xs =>
    simp only [Market.unlockTransfer, bind_ok, pure_ok] at h; obtain ⟨_, _, _, _, rfl⟩ := h; exact ⟨rfl, rfl, rfl, rfl⟩

theorem buy_same {c : Market.Cfg} {s t : Market.St} {w : Acct} {i : Nat} (h : Market.buy c s w i = .ok t) : Same s t := by
  simp only [Market.buy, bind_ok] at h
  obtain ⟨l, _, _, _, _, _, L, _, h⟩ := h
  refine Same.trans ?_ (unlockTransfer_same h)
  exact ⟨rfl, rfl, rfl, rfl⟩

theorem buyMulti_same {c : Market.Cfg} {w : Acct} : ∀ (is : List Nat) {s t : Market.St},
    Market.buyMulti c w is s = .ok t → Same s t
  | [], s, t, h => by cases Except.ok.inj h; exact .refl _
  | i :: is, s, t, h => by
    simp only [Market.buyMulti, bind_ok] at h
    obtain ⟨s1, h1, h2⟩ := h
    exact (buy_same h1).trans (buyMulti_same is h2)

theorem extend_same (s : Market.St) (i : Nat) (l : Listing) : Same s (Market.extend s i l) := by
  unfold Market.extend
  split <;> exact ⟨rfl, rfl, rfl, rfl⟩

theorem settle_same {c : Market.Cfg} {s t : Market.St} {b w : Acct} {a : AssetId} {x : Tokens} {n : Nat}
    {r : List (Acct × Nat)} (h : Market.settle c s b w a x n r = .ok t) : Same s t := by
  simp only [Market.settle, bind_ok] at h
  obtain ⟨_, _, h⟩ := h
  refine Same.trans ?_ (unlockTransfer_same h)
  exact ⟨rfl, rfl, rfl, rfl⟩

theorem closeOne_same (c : Market.Cfg) (s : Market.St) (i : Nat) : Same s (Market.closeOne c s i) := by
  unfold Market.closeOne
  split
  · exact .refl _
  · rename_i l _
    have hr : Same s (Market.removeListing s i l) := ⟨rfl, rfl, rfl, rfl⟩
    split
    · refine hr.trans ?_
      unfold Market.closeAuction
      split
      · exact unlockSoft_same _ _ _
      · split
        · rename_i h
          refine Same.trans ?_ (settle_same h)
          exact ⟨rfl, rfl, rfl, rfl⟩
        · unfold Market.releaseSoft
          split <;> exact ⟨rfl, rfl, rfl, rfl⟩
    · exact hr.trans (unlockSoft_same _ _ _)

theorem closeAll_same (c : Market.Cfg) : ∀ (ids : List Nat) (s : Market.St), Same s (ids.foldl (Market.closeOne c) s)
  | [], _ => .refl _
  | i :: ids, s => (closeOne_same c s i).trans (closeAll_same c ids _)

theorem unlist_same (s : Market.St) (id n : Nat) : Same s (Market.unlist s id n) := by
  unfold Market.unlist
  split <;> exact ⟨rfl, rfl, rfl, rfl⟩

/-- What operations do to marketplaces and offers: offers are added at the next number or removed. -/
structure Grows (s t : Market.St) : Prop where
  fromOne : FromOne s → FromOne t
  next : s.nextOffer ≤ t.nextOffer
  old : ∀ i, i < s.nextOffer → t.offers i = s.offers i ∨ t.offers i = none

theorem Same.grows {s t : Market.St} (h : Same s t) : Grows s t where
  fromOne := fun k => by unfold FromOne at *; rw [h.markets, h.nextMarket]; exact k
  next := h.nextOffer.ge
  old := fun i _ => Or.inl (by rw [h.offers])

theorem removeOffer_grows {s t : Market.St} {i id n : Nat} (h : Market.removeOffer s i id n = .ok t) : Grows s t := by
  simp only [Market.removeOffer, bind_ok, pure_ok] at h
  obtain ⟨_, _, rfl⟩ := h
  refine ⟨fun k => k, Nat.le_refl _, fun j _ => ?_⟩
  show upd s.offers i none j = _ ∨ upd s.offers i none j = _
  by_cases hj : j = i
  · subst hj; exact Or.inr (upd_same _ _ _)
  · exact Or.inl (upd_ne _ _ hj)

theorem Grows.after {s t u : Market.St} (h : Same s t) (k : Grows t u) : Grows s u where
  fromOne := fun x => k.fromOne (h.grows.fromOne x)
  next := by rw [← h.nextOffer]; exact k.next
  old := fun i hi => by rw [← h.offers]; exact k.old i (by rw [h.nextOffer]; exact hi)

theorem step_grows {c : Market.Cfg} {s t : Market.St} {op : Op} (h : Market.step c s op = .ok t) : Grows s t := by
  cases op with
  | list b w x y a p d m =>
    simp only [Market.step, Market.list, bind_ok, pure_ok] at h
    obtain ⟨_, _, _, _, _, _, _, _, s1, h1, _, _, rfl⟩ := h
    exact Same.grows ((lockTokens_same h1).trans ⟨rfl, rfl, rfl, rfl⟩)
  | updatePrice w i p =>
    simp only [Market.step, Market.updatePrice, bind_ok, pure_ok] at h
    obtain ⟨_, _, _, _, _, _, _, _, rfl⟩ := h
    exact Same.grows ⟨rfl, rfl, rfl, rfl⟩
  | buy w i => exact (buy_same h).grows
  | buyMulti w is => exact (buyMulti_same is h).grows
  | bid w i x =>
    simp only [Market.step, Market.bid, bind_ok, pure_ok] at h
    obtain ⟨_, _, _, _, _, _, _, _, _, _, _, _, rfl⟩ := h
    refine Same.grows (Same.trans ?_ (extend_same _ _ _))
    exact ⟨rfl, rfl, rfl, rfl⟩
  | cancelSale w i =>
    simp only [Market.step, Market.cancelSale, bind_ok, pure_ok] at h
    obtain ⟨_, _, _, _, _, _, _, h1, rfl⟩ := h
    exact Same.grows ((unlockTokens_same h1).trans ⟨rfl, rfl, rfl, rfl⟩)
  | makeOffer w id n x a m =>
    simp only [Market.step, Market.makeOffer, bind_ok, pure_ok] at h
    obtain ⟨_, _, _, _, _, _, _, _, _, _, _, _, _, _, _, _, rfl⟩ := h
    refine ⟨fun k => k, Nat.le_succ _, fun j hj => Or.inl ?_⟩
    exact upd_ne _ _ (by omega)
  | cancelOffer w i =>
    simp only [Market.step, Market.cancelOffer, bind_ok] at h
    obtain ⟨_, _, _, _, _, _, h⟩ := h
    refine Grows.after ?_ (removeOffer_grows h)
    exact ⟨rfl, rfl, rfl, rfl⟩
  | acceptOffer w i =>
    simp only [Market.step, Market.acceptOffer, bind_ok] at h
    obtain ⟨_, _, _, _, _, _, _, h1, h⟩ := h
    exact Grows.after ((unlist_same _ _ _).trans (settle_same h1)) (removeOffer_grows h)
  | registerMarket w a p =>
    simp only [Market.step, Market.registerMarket, bind_ok, pure_ok] at h
    obtain ⟨_, _, _, _, rfl⟩ := h
    refine ⟨fun k => ⟨?_, ?_⟩, Nat.le_refl _, fun _ _ => Or.inl rfl⟩
    · have h1 := k.2
      show upd s.markets s.nextMarket _ 0 = none
      rw [upd_ne _ _ (by omega)]
      exact k.1
    · show 1 ≤ s.nextMarket + 1
      omega
  | setFeeTo f => cases Except.ok.inj h; exact Same.grows ⟨rfl, rfl, rfl, rfl⟩
  | nextBlock ids =>
    simp only [Market.step, Market.nextBlock, bind_ok, pure_ok] at h
    obtain ⟨_, _, _, _, rfl⟩ := h
    refine Same.grows (Same.trans ?_ (closeAll_same c ids _))
    exact ⟨rfl, rfl, rfl, rfl⟩
  | nft op =>
    simp only [Market.step, bind_ok, pure_ok] at h
    obtain ⟨_, _, rfl⟩ := h
    exact Same.grows ⟨rfl, rfl, rfl, rfl⟩
  | sft op =>
    simp only [Market.step, bind_ok, pure_ok] at h
    obtain ⟨_, _, rfl⟩ := h
    exact Same.grows ⟨rfl, rfl, rfl, rfl⟩
  | assets op =>
    simp only [Market.step, bind_ok, pure_ok] at h
    obtain ⟨_, _, rfl⟩ := h
    exact Same.grows ⟨rfl, rfl, rfl, rfl⟩

theorem later_grows {c : Market.Cfg} {s t : Market.St} (h : Later c s t) : Grows s t := by
  induction h with
  | refl => exact (Same.refl _).grows
  | step _ hs ih =>
    have k := step_grows hs
    refine ⟨fun x => k.fromOne (ih.fromOne x), ih.next.trans k.next, fun i hi => ?_⟩
    rcases k.old i (hi.trans_le ih.next) with h | h
    · rw [h]; exact ih.old i hi
    · exact Or.inr h

/-- Nothing is settled for marketplace zero. -/
theorem no_bundle {c : Market.Cfg} {s : Market.St} (h : s.markets 0 = none) {t : Tokens} {r : List (Acct × Nat)} :
    Market.bundle c s t (some 0) ≠ .ok r := by
  intro hb
  simp only [Market.bundle, Market.pushMarket, bind_ok, okOr_ok] at hb
  obtain ⟨_, _, _, _, _, ⟨_, h2, _⟩, _⟩ := hb
  rw [h] at h2
  cases h2

/-! ## C174: where the contract does not do what is asked -/

/-- C174: an auction without marketplace cannot be made through the contract, whatever the tokens, the terms and the
history of the chain (of the pallet it can, see `C174_refuted`). -/
theorem C174_no_auction {c : Market.Cfg} {s t s' : Market.St} (h0 : FromOne s) (hl : Later c s t) {st : Bool} {caller : Acct}
    {v coll asset p d : Nat} {ns : List Nat} {ans : Answer} :
    call c t st caller v (.auctionNft coll ns asset p d 0) ≠ .ok (s', ans) := by
  intro h
  obtain ⟨_, _, h⟩ := (call_ok (by exact rfl)).mp h
  simp only [run, bind_ok, auction_ok] at h
  obtain ⟨_, _, _, _, _, _, _, _, _, _, h, _⟩ := h
  simp only [Market.list, bind_ok] at h
  obtain ⟨_, _, _, _, _, h, _⟩ := h
  exact no_bundle ((later_grows hl).fromOne h0).1 h

/-- C174: the same for auctions of semi-fungible tokens. -/
theorem C174_no_sft_auction {c : Market.Cfg} {s t s' : Market.St} (h0 : FromOne s) (hl : Later c s t) {st : Bool}
    {caller : Acct} {v coll asset p d : Nat} {ns qs : List Nat} {ans : Answer} :
    call c t st caller v (.auctionSft coll ns qs asset p d 0) ≠ .ok (s', ans) := by
  intro h
  obtain ⟨_, _, h⟩ := (call_ok (by exact rfl)).mp h
  simp only [run, bind_ok, auction_ok] at h
  obtain ⟨_, _, _, _, _, _, _, _, _, _, h, _⟩ := h
  simp only [Market.list, bind_ok] at h
  obtain ⟨_, _, _, _, _, h, _⟩ := h
  exact no_bundle ((later_grows hl).fromOne h0).1 h

/-- The demonstration chain of `Verif.Market` with marketplaces numbered from one. -/
def g1 : Market.St := { Market.g0 with nextMarket := 1 }

theorem genesis_g1 : Market.Genesis Market.cfg0 g1 where
  dur := Market.genesis_g0.dur
  nft := Market.genesis_g0.nft
  sft := Market.genesis_g0.sft
  hs := Market.genesis_g0.hs
  iss := Market.genesis_g0.iss
  listings := fun _ => rfl
  bids := fun _ => rfl
  offers := fun _ => rfl
  tokenOffers := fun _ _ => rfl
  sched := fun _ => rfl
  index := fun _ _ => rfl
  now := Market.genesis_g0.now

/-- Account 1 makes collection 100 with tokens 0-4 and a royalty of 10 %, and 20 pieces of an SFT. -/
def headOps : List Op :=
  [.nft (.create 1 5 none none (some [(5, 100000)]) false), .sft (.createColl 1 none),
   .sft (.createToken 1 100 20 none none true)]

def head : Market.St := Market.exec Market.cfg0 g1 headOps

theorem head_reach : Market.Reach Market.cfg0 (Market.Env Market.cfg0) head := by
  refine Market.exec_reach _ (.init genesis_g1) ?_
  simp only [headOps, List.forall_mem_cons, Market.Env, Market.NftOutside, Market.SftOutside, Nft.Bridged]
  exact ⟨fun _ => trivial, fun _ => trivial, fun _ => trivial, fun _ h => nomatch h⟩

theorem head_fromOne : FromOne head := ⟨by decide +kernel, by decide +kernel⟩

/-- The contracts of NFT collection 100, SFT collection 100 and asset 4. -/
def coll100 : Nat := (0xAAAAAAAA * 2 ^ 32 + 100) * 2 ^ 96
def sft100 : Nat := (0xBBBBBBBB * 2 ^ 32 + 100) * 2 ^ 96
def asset4 : Nat := (0xCCCCCCCC * 2 ^ 32 + 4) * 2 ^ 96

/-- C174 as stated is false: an auction with marketplace zero is refused, though the pallet accepts the auction. -/
theorem C174_refuted : ¬ ContractIsPallet := by
  intro h
  have hk : (Market.step Market.cfg0 head (.list true 1 (.nft 100 [0]) none 4 5 none none)).isOk = true := by
    decide +kernel
  cases he : Market.step Market.cfg0 head (.list true 1 (.nft 100 [0]) none 4 5 none none) with
  | error e => rw [he] at hk; cases hk
  | ok s' =>
    have := (h Market.cfg0 head s' 1 (.auctionNft coll100 [0] asset4 5 0 0) .nothing rfl).mpr
      ⟨_, .auctionNft (id := 100) (a := 4) (d' := none) (m' := none) ⟨by decide +kernel, by decide⟩
        ⟨by decide +kernel, by decide⟩ (by decide) (by decide) (by decide) (by decide) (Or.inl ⟨rfl, rfl⟩)
        (Or.inl ⟨rfl, rfl⟩), he, rfl⟩
    exact C174_no_auction head_fromOne .refl this

/-- Also, a marketplace that does not fit is not refused in an offer but replaced by another: offers for marketplace
`2^32 + 5` are made for marketplace `2^32 - 1`. -/
theorem C174_cut_refuted : ∃ s', call Market.cfg0 head false 2 0 (.makeSimpleOffer coll100 3 4 asset4 (2 ^ 32 + 5)) =
    .ok (s', .id 0) ∧ (s'.offers 0).map Offer.market = some (some (2 ^ 32 - 1)) := by
  have hk : ((call Market.cfg0 head false 2 0 (.makeSimpleOffer coll100 3 4 asset4 (2 ^ 32 + 5))).toOption.map
      (fun x => (x.2, (x.1.offers 0).map Offer.market))) = some (.id 0, some (some (2 ^ 32 - 1))) := by decide +kernel
  cases he : call Market.cfg0 head false 2 0 (.makeSimpleOffer coll100 3 4 asset4 (2 ^ 32 + 5)) with
  | error e => rw [he] at hk; cases hk
  | ok x =>
    rw [he] at hk
    obtain ⟨h1, h2⟩ := Prod.mk.inj (Option.some.inj hk)
    exact ⟨x.1, by rw [← h1], h2⟩

/-- And a share above one is not refused but cut to one: the pallet's call with the same share fails. -/
theorem C174_share_refuted {c : Market.Cfg} {s s' : Market.St} {caller : Acct} {x p : Nat} (hp : 1000000 < p) (h32 : p < U32) :
    (call c s false caller 0 (.registerMarketplace x p) = .ok (s', .id s.nextMarket) ↔
      Market.registerMarket s caller (if x = 0 then none else some x) 1000000 = .ok s') ∧
    ∀ y s', Market.registerMarket s caller y p ≠ .ok s' := by
  constructor
  · rw [call_ok (by exact rfl)]
    simp only [run, bind_ok, fits_ok, pure_ok, nonZero]
    rw [Nat.min_eq_right (by omega)]
    constructor
    · rintro ⟨_, _, _, _, t, h1, h2⟩
      obtain ⟨rfl, _⟩ := Prod.mk.inj h2
      exact h1
    · intro h
      exact ⟨trivial, trivial, (), h32, s', h, rfl⟩
  · intro y s' h
    simp only [Market.registerMarket, bind_ok, ensure_ok] at h
    have := h.choose_spec.1
    omega

example : (call Market.cfg0 head false 2 0 (.registerMarketplace 0 2000000)).isOk = true := by decide +kernel

/-- The hypotheses of `C174_partial` for a sale: 3 of 20 pieces, to anybody, without marketplace. -/
example : (call Market.cfg0 head false 1 0 (.sellSft sft100 [0] [3] 0 asset4 10 0 0)).isOk = true ∧
    Means Market.cfg0 1 (.sellSft sft100 [0] [3] 0 asset4 10 0 0) (.list false 1 (.sft 100 [(0, 3)]) none 4 10 none none) :=
  ⟨by decide +kernel, .sellSft (id := 100) (a := 4) (b' := none) (d' := none) (m' := none)
    ⟨by decide +kernel, by decide⟩ ⟨by decide +kernel, by decide⟩ (by decide) (by decide) rfl (by decide) (by decide)
    (by decide) (Or.inl ⟨rfl, rfl⟩) (Or.inl ⟨rfl, rfl⟩) (Or.inl ⟨rfl, rfl⟩)⟩

/-! ## C175: an offer can be accepted -/

/-- C175: an offer made through the contract with marketplace zero is never accepted, whatever happens afterwards and
whoever tries. -/
theorem C175_zero_dead {c : Market.Cfg} {s s' t : Market.St} (h0 : FromOne s) {st : Bool} {caller : Acct}
    {v coll n x asset : Nat} {ans : Answer}
    (h : call c s st caller v (.makeSimpleOffer coll n x asset 0) = .ok (s', ans)) (hl : Later c s' t) {who : Acct}
    {u : Market.St} : ans = .id s.nextOffer ∧ Market.step c t (.acceptOffer who s.nextOffer) ≠ .ok u := by
  obtain ⟨_, _, h⟩ := (call_ok (by exact rfl)).mp h
  simp only [run, bind_ok, pure_ok] at h
  obtain ⟨_, _, id, _, _, _, a, _, s1, h1, h2⟩ := h
  obtain ⟨rfl, rfl⟩ := Prod.mk.inj h2
  refine ⟨rfl, fun hu => ?_⟩
  have hst : Market.step c s (.makeOffer caller id n x a (some (min 0 (U32 - 1)))) = .ok s1 := h1
  have g1 := step_grows hst
  simp only [Market.makeOffer, bind_ok, pure_ok] at h1
  obtain ⟨_, _, _, _, _, _, _, _, _, _, _, _, hs, _, _, _, rfl⟩ := h1
  have g2 := later_grows hl
  have hm := (g2.fromOne (g1.fromOne h0)).1
  have ho : t.offers s.nextOffer = some ⟨id, n, a, x, caller, some 0⟩ ∨ t.offers s.nextOffer = none := by
    rcases g2.old s.nextOffer (Nat.lt_succ_self _) with h | h
    · left; rw [h]; exact upd_same _ _ _
    · exact Or.inr h
  simp only [Market.step, Market.acceptOffer, bind_ok, okOr_ok] at hu
  obtain ⟨o, hoo, _, _, r, hr, _⟩ := hu
  rcases ho with ho | ho
  · rw [ho] at hoo
    have hoo := Option.some.inj hoo
    rw [← hoo] at hr
    exact no_bundle (by rw [(unlist_same t _ _).markets]; exact hm) hr
  · rw [ho] at hoo
    cases hoo

/-- C175 as stated is false: such an offer is made (the buyer's money is taken) and nobody can ever accept it. -/
theorem C175_refuted : ∃ s', call Market.cfg0 head false 2 0 (.makeSimpleOffer coll100 3 4 asset4 0) = .ok (s', .id 0) ∧
    head.hs.ledger.bal 4 2 = 50 ∧ s'.hs.ledger.bal 4 2 = 46 ∧
    ∀ t, Later Market.cfg0 s' t → ∀ who u, Market.step Market.cfg0 t (.acceptOffer who 0) ≠ .ok u := by
  have hk : ((call Market.cfg0 head false 2 0 (.makeSimpleOffer coll100 3 4 asset4 0)).toOption.map
      (fun x => (x.2, head.hs.ledger.bal 4 2, x.1.hs.ledger.bal 4 2))) = some (.id 0, 50, 46) := by decide +kernel
  cases he : call Market.cfg0 head false 2 0 (.makeSimpleOffer coll100 3 4 asset4 0) with
  | error e => rw [he] at hk; cases hk
  | ok x =>
    rw [he] at hk
    obtain ⟨h1, h2⟩ := Prod.mk.inj (Option.some.inj hk)
    obtain ⟨h2, h3⟩ := Prod.mk.inj h2
    refine ⟨x.1, by rw [← h1], h2, h3, fun t ht who u => ?_⟩
    have hz : head.nextOffer = 0 := by decide +kernel
    have := (C175_zero_dead head_fromOne (s' := x.1) (ans := x.2) he ht (who := who) (u := u)).2
    rw [hz] at this
    exact this

/-- The hold of an account covers each of its offers. -/
theorem covers {c : Market.Cfg} {s : Market.St} (hg : Market.Good c s []) {i : Nat} {o : Offer} (h : s.offers i = some o) :
    o.amount ≤ Holds.holdOf (s.hs.holds o.asset o.buyer) c.pid := by
  obtain ⟨m, k, e1, _, e3⟩ := hg.mi.exact o.asset o.buyer
  have := e1.le i
  rw [h] at this
  unfold Market.offerAmt at this
  dsimp only at this
  rw [if_pos ⟨rfl, rfl⟩] at this
  omega

/-- Paying an offer or bid out of the buyer's hold succeeds. -/
theorem spend_succeeds {c : Market.Cfg} {hs : Holds.St} {w : Acct} {a : AssetId} {xs : List (Acct × Nat)} {amt : Nat}
    (hi : Holds.HI c.holds hs) (h0 : 0 < amt) (ha : amt < U128) (hx : (xs.map Prod.snd).sum = amt)
    (hle : amt ≤ Holds.holdOf (hs.holds a w) c.pid) : ∃ t, Holds.spend c.holds hs c.pid w a xs = .ok t := by
  have hh : Holds.has (hs.holds a w) c.pid = true := by
    by_contra hn
    have := Holds.holdOf_not hn
    omega
  obtain ⟨n, hn, hb⟩ := hi.backed a
  have h1 : Holds.holdOf (hs.holds a w) c.pid ≤ Holds.sumOf (hs.holds a w) := Holds.holdOf_le
  have h2 := hn.le w
  have hbal : amt ≤ hs.ledger.bal a c.holds.pot := by omega
  have htot : Holds.total xs = amt := by unfold Holds.total; rw [hx, Nat.mod_eq_of_lt ha]
  obtain ⟨L, hL⟩ := Market.payAll_succeeds (a := a) (src := c.holds.pot) (xs := xs) (L := hs.ledger) (by rw [hx]; exact hbal)
  have hd : ∃ l, Holds.decrease (hs.holds a w) c.pid (Holds.total xs) = .ok l := by
    unfold Holds.decrease
    rw [ensure_pos hh, ensure_pos (by rw [htot]; exact hle)]
    exact ⟨_, rfl⟩
  obtain ⟨l, hl⟩ := hd
  refine ⟨Holds.setHolds hs L a w l, ?_⟩
  simp only [Holds.spend, Holds.splitTransfer, bind_ok, ensure_ok, pure_ok]
  exact ⟨l, hl, L, ⟨(), by rw [htot]; exact hbal, hL⟩, rfl⟩

/-- C175, partial: an offer is accepted through the contract by the owner of the token if the royalties of the
collection, the network fee and the share of the offer's marketplace can be combined, the amount is not small compared
with them, and the token can be handed to the buyer. -/
theorem C175_partial {c : Market.Cfg} {s : Market.St} (h : Market.Reach c (Market.Env c) s) {who : Acct} {i : Nat} {o : Offer}
    {r : List (Acct × Nat)} (ho : s.offers i = some o) (hi : i < U64) (hw : Nft.ownerOf s.nft o.coll o.serial = some who)
    (hr : Market.bundle c s (.nft o.coll [o.serial]) o.market = .ok r)
    (hsm : (r.map Prod.snd).sum * o.amount + 499999 * r.length ≤ 1000000 * o.amount)
    (ht : ∃ t, Market.unlockTransfer c s who o.buyer (.nft o.coll [o.serial]) = .ok t) :
    ∃ s', call c s false who 0 (.acceptOffer i) = .ok (s', .nothing) := by
  have hg := h.good (fun _ _ h => h)
  obtain ⟨o1, o2, o3, o4⟩ := hg.mi.offer i o ho
  obtain ⟨⟨ls, sc, ix, e⟩, g, _, _⟩ := Market.unlist_ok hg o.coll o.serial
  have hfit : Market.shares r o.amount ≤ o.amount := by
    have := Market.shares_mul o.amount r
    omega
  obtain ⟨e1, _⟩ := Market.payouts_spec (seller := who) (Market.bundle_good hr) o3 hfit
  obtain ⟨hs, hsp⟩ := spend_succeeds hg.mi.hi o2 o3 e1 (covers hg ho)
  have ht' : ∃ n, Market.unlockTransfer c { { s with listings := ls, sched := sc, index := ix } with hs := hs } who o.buyer
      (.nft o.coll [o.serial]) = .ok { { s with listings := ls, sched := sc, index := ix } with hs := hs, nft := n } := by
    obtain ⟨t, ht⟩ := ht
    simp only [Market.unlockTransfer, bind_ok, ensure_ok, pure_ok] at ht ⊢
    obtain ⟨_, h1, x, h2, _⟩ := ht
    exact ⟨x, (), h1, x, h2, rfl⟩
  obtain ⟨n, ht'⟩ := ht'
  have hr' : Market.bundle c { s with listings := ls, sched := sc, index := ix } (.nft o.coll [o.serial]) o.market = .ok r := hr
  have hacc : ∃ s', Market.acceptOffer c s who i = .ok s' := by
    simp only [Market.acceptOffer, Market.settle, Market.removeOffer, bind_ok, okOr_ok, ensure_ok, pure_ok]
    have hr2 : Market.bundle c (Market.unlist s o.coll o.serial) (.nft o.coll [o.serial]) o.market = .ok r := by
      rw [e]; exact hr'
    have hsp2 : Holds.spend c.holds (Market.unlist s o.coll o.serial).hs c.pid o.buyer o.asset
        (Market.payouts who r o.amount) = .ok hs := by rw [e]; exact hsp
    have ht2 : Market.unlockTransfer c { Market.unlist s o.coll o.serial with hs := hs } who o.buyer
        (.nft o.coll [o.serial]) = .ok { { s with listings := ls, sched := sc, index := ix } with hs := hs, nft := n } := by
      rw [e]; exact ht'
    exact ⟨_, o, ho, (), hw, r, hr2, _, ⟨hs, hsp2, ht2⟩, (), Or.inr ((hg.mi.mem i _ _).mpr ⟨o, ho, rfl, rfl⟩), rfl⟩
  obtain ⟨s', hacc⟩ := hacc
  refine ⟨s', (call_ok (by exact rfl)).mpr ⟨rfl, rfl, ?_⟩⟩
  simp only [run, bind_ok, fits_ok, pure_ok]
  exact ⟨(), hi, s', hacc, rfl⟩

/-- Account 3 registers a marketplace with a share of 2 %, account 2 offers 4 through it. -/
def offerOps : List Op := headOps ++ [.registerMarket 3 none 20000, .makeOffer 2 100 3 4 4 (some 1)]

def offered : Market.St := Market.exec Market.cfg0 g1 offerOps

theorem offered_reach : Market.Reach Market.cfg0 (Market.Env Market.cfg0) offered := by
  refine Market.exec_reach _ (.init genesis_g1) ?_
  simp only [offerOps, headOps, List.cons_append, List.nil_append, List.forall_mem_cons, Market.Env, Market.NftOutside,
    Market.SftOutside, Nft.Bridged]
  exact ⟨fun _ => trivial, fun _ => trivial, fun _ => trivial, fun _ => trivial, fun _ => by decide, fun _ h => nomatch h⟩

example : ∃ o r, offered.offers 0 = some o ∧ o.market = some 1 ∧ Nft.ownerOf offered.nft o.coll o.serial = some 1 ∧
    (Market.bundle Market.cfg0 offered (.nft o.coll [o.serial]) o.market).toOption = some r ∧
    (r.map Prod.snd).sum * o.amount + 499999 * r.length ≤ 1000000 * o.amount ∧
    (Market.unlockTransfer Market.cfg0 offered 1 o.buyer (.nft o.coll [o.serial])).isOk = true :=
  ⟨(offered.offers 0).get (by decide +kernel), [(5, 100000), (3, 20000)], by decide +kernel, by decide +kernel,
    by decide +kernel, by decide +kernel, by decide +kernel, by decide +kernel⟩

/-! ## C176: what the contract reports -/

/-- C176: asking changes nothing, and is allowed in a static call. -/
theorem C176_asking {c : Market.Cfg} {s s' : Market.St} {st : Bool} {caller : Acct} {v : Nat} {i : Input} {ans : Answer}
    (hv : isView i = true) : call c s st caller v i = .ok (s', ans) ↔
      v = 0 ∧ s' = s ∧ call c s true caller 0 i = .ok (s, ans) := by
  have e : (if isView i = true then DexEvm.Modifier.view else .nonPayable) = .view := by rw [hv]; rfl
  have hcall : ∀ b w x, call c s b caller w i = .ok x ↔ w = 0 ∧ run c s caller i = .ok x := by
    intro b w x
    simp only [call, DexEvm.checkModifier, bind_ok, ensure_ok, e]
    constructor
    · rintro ⟨_, ⟨_, _, h2⟩, h3⟩
      rcases h2 with h2 | h2
      · cases h2
      · exact ⟨h2, h3⟩
    · rintro ⟨rfl, h3⟩
      exact ⟨(), ⟨(), fun h => h.2 rfl, Or.inr rfl⟩, h3⟩
  rw [hcall, hcall]
  have hrun : ∀ x a, run c s caller i = .ok (x, a) → x = s := by
    intro x a h
    cases i <;> first
      | (cases hv; done)
      | (simp only [run, bind_ok, pure_ok] at h
         obtain ⟨_, _, _, _, h⟩ := h
         exact (Prod.mk.inj h).1.symm)
  constructor
  · rintro ⟨h1, h2⟩
    obtain rfl := hrun _ _ h2
    exact ⟨h1, rfl, rfl, h2⟩
  · rintro ⟨h1, rfl, _, h2⟩
    exact ⟨h1, h2⟩

/-- The claim: listings that are reported alike give a buyer the same. -/
def ReportTells : Prop :=
  ∀ (c : Market.Cfg) (s t s' t' : Market.St) (i : Nat) (who : Acct) (ans : Answer), Market.Reach c (Market.Env c) s →
    Market.Reach c (Market.Env c) t → call c s true who 0 (.getListingFromId i) = .ok (s, ans) →
    call c t true who 0 (.getListingFromId i) = .ok (t, ans) → Market.step c s (.buy who i) = .ok s' →
    Market.step c t (.buy who i) = .ok t' → ∀ id n, Sft.free s.sft id n who = Sft.free t.sft id n who →
      Sft.free s'.sft id n who = Sft.free t'.sft id n who

/-- Account 1 sells `q` pieces for 10. -/
def pieceOps (q : Nat) : List Op := headOps ++ [.list false 1 (.sft 100 [(0, q)]) none 4 10 none none]

def pieceSt (q : Nat) : Market.St := Market.exec Market.cfg0 g1 (pieceOps q)

theorem piece_reach (q : Nat) : Market.Reach Market.cfg0 (Market.Env Market.cfg0) (pieceSt q) := by
  refine Market.exec_reach _ (.init genesis_g1) ?_
  simp only [pieceOps, headOps, List.cons_append, List.nil_append, List.forall_mem_cons, Market.Env, Market.NftOutside,
    Market.SftOutside, Nft.Bridged]
  exact ⟨fun _ => trivial, fun _ => trivial, fun _ => trivial, fun _ => by decide, fun _ h => nomatch h⟩

theorem ask_listing {c : Market.Cfg} {s : Market.St} {who : Acct} {i : Nat} {ans : Answer} :
    call c s true who 0 (.getListingFromId i) = .ok (s, ans) ↔ i < U128 ∧ ∃ l, s.listings i = some l ∧
      ans = .listing l.auction (splitTokens l.tokens).1 (splitTokens l.tokens).2 l.price l.asset := by
  simp only [call, DexEvm.checkModifier, run, bind_ok, ensure_ok, fits_ok, okOr_ok, pure_ok, isView]
  constructor
  · rintro ⟨_, _, _, h1, l, h2, h3⟩
    exact ⟨h1, l, h2, (Prod.mk.inj h3).2.symm⟩
  · rintro ⟨h1, l, h2, rfl⟩
    exact ⟨(), ⟨(), by simp, Or.inr trivial⟩, (), h1, l, h2, rfl⟩

/-- C176 as stated is false: a sale of one piece and a sale of 8 pieces are reported alike. -/
theorem C176_refuted : ¬ ReportTells := by
  intro h
  have hk : ∀ q, q = 1 ∨ q = 8 → ∃ s', Market.step Market.cfg0 (pieceSt q) (.buy 2 0) = .ok s' ∧
      Sft.free s'.sft 100 0 2 = q := by
    intro q hq
    have hk : ((Market.step Market.cfg0 (pieceSt q) (.buy 2 0)).toOption.map (fun s => Sft.free s.sft 100 0 2)) = some q := by
      rcases hq with rfl | rfl <;> decide +kernel
    cases he : Market.step Market.cfg0 (pieceSt q) (.buy 2 0) with
    | error e => rw [he] at hk; cases hk
    | ok s' => rw [he] at hk; exact ⟨s', rfl, Option.some.inj hk⟩
  obtain ⟨s1, e1, f1⟩ := hk 1 (Or.inl rfl)
  obtain ⟨s8, e8, f8⟩ := hk 8 (Or.inr rfl)
  have ha : ∀ q, q = 1 ∨ q = 8 → call Market.cfg0 (pieceSt q) true 2 0 (.getListingFromId 0) =
      .ok (pieceSt q, .listing false 100 [0] 10 4) := by
    intro q hq
    rw [ask_listing]
    rcases hq with rfl | rfl
    · exact ⟨by decide, ((pieceSt 1).listings 0).get (by decide +kernel), by decide +kernel, by decide +kernel⟩
    · exact ⟨by decide, ((pieceSt 8).listings 0).get (by decide +kernel), by decide +kernel, by decide +kernel⟩
  have := h Market.cfg0 _ _ _ _ 0 2 _ (piece_reach 1) (piece_reach 8) (ha 1 (Or.inl rfl)) (ha 8 (Or.inr rfl)) e1 e8
    100 0 (by decide +kernel)
  omega

/-- C176, partial: for listings of NFTs the report is right and complete: whoever buys the reported listing pays the
reported price in the reported asset and receives exactly the reported tokens. -/
theorem C176_partial {c : Market.Cfg} {s s' : Market.St} (h : Market.Reach c (Market.Env c) s) {who asker : Acct} {i id p : Nat}
    {ns : List Nat} {a : AssetId} {auction : Bool} (hw : who ≠ c.holds.pot)
    (hq : call c s true asker 0 (.getListingFromId i) = .ok (s, .listing auction id ns p a))
    (hn : ∃ l j ms, s.listings i = some l ∧ l.tokens = .nft j ms) (hs : Market.step c s (.buy who i) = .ok s') :
    auction = false ∧ (∀ n ∈ ns, Nft.ownerOf s'.nft id n = some who) ∧
    (∀ j m, ¬ (j = id ∧ m ∈ ns) → Nft.ownerOf s'.nft j m = Nft.ownerOf s.nft j m) ∧ s'.sft = s.sft ∧
    (∀ b, b ≠ a → s'.hs.ledger.bal b = s.hs.ledger.bal b) ∧
    ∃ seller roy, Market.Paid s.hs s'.hs a who seller roy p ∧ ∀ n ∈ ns, Nft.ownerOf s.nft id n = some seller := by
  obtain ⟨_, l, hl, e⟩ := ask_listing.mp hq
  obtain ⟨l', j, ms, hl', ht⟩ := hn
  obtain ⟨k, hk, k1, _, _, k2, _, k3⟩ := Market.C30_buy h hw hs
  obtain rfl := Option.some.inj (hl.symm.trans hl')
  obtain rfl := Option.some.inj (hl.symm.trans hk)
  rw [ht] at e k3
  injection e with e1 e2 e3 e4 e5
  subst e1 e2 e3 e4 e5
  exact ⟨k1, fun n hn => (k3.1 n hn).2.1, fun j m hm => (k3.2.1 j m hm).1, k3.2.2, k2.others, _, _, k2,
    fun n hn => (k3.1 n hn).1⟩

/-- C176: what is reported about an offer is right: accepting takes the reported amount of some asset out of the holds
of the reported buyer and gives them the reported token. (Which asset is not reported, see
`C176_offer_asset_refuted`.) -/
theorem C176_offer_partial {c : Market.Cfg} {s s' : Market.St} (h : Market.Reach c (Market.Env c) s) {who asker : Acct}
    {i id n x : Nat} {b : Acct} (hq : call c s true asker 0 (.getOfferFromId i) = .ok (s, .offer id n x b))
    (hs : Market.step c s (.acceptOffer who i) = .ok s') :
    Nft.ownerOf s.nft id n = some who ∧ Nft.ownerOf s'.nft id n = some b ∧ ∃ a roy,
      Market.Paid s.hs s'.hs a c.holds.pot who roy x ∧
      ∀ a' y, Holds.holdOf (s'.hs.holds a' y) c.pid + (if a' = a ∧ y = b then x else 0) =
        Holds.holdOf (s.hs.holds a' y) c.pid := by
  simp only [call, DexEvm.checkModifier, run, bind_ok, ensure_ok, fits_ok, okOr_ok, pure_ok, isView] at hq
  obtain ⟨_, _, _, _, o, ho, e⟩ := hq
  have e := (Prod.mk.inj e).2
  injection e with e1 e2 e3 e4
  subst e1 e2 e3 e4
  obtain ⟨o', roy, ho', k1, _, _, k2, k3, k4⟩ := Market.C30_accept h hs
  obtain rfl := Option.some.inj (ho.symm.trans ho')
  exact ⟨k1, (k4.1 _ List.mem_cons_self).2.1, _, roy, k2, k3⟩

/-- Offers in different assets are reported alike. -/
theorem C176_offer_asset_refuted : ∃ s t o q, Market.Reach Market.cfg0 (Market.Env Market.cfg0) s ∧
    Market.Reach Market.cfg0 (Market.Env Market.cfg0) t ∧ s.offers 0 = some o ∧ t.offers 0 = some q ∧ o.asset ≠ q.asset ∧
    (call Market.cfg0 s true 1 0 (.getOfferFromId 0)).toOption.map Prod.snd = some (.offer 100 3 4 2) ∧
    (call Market.cfg0 t true 1 0 (.getOfferFromId 0)).toOption.map Prod.snd = some (.offer 100 3 4 2) := by
  have hr : ∀ a : AssetId, Market.Reach Market.cfg0 (Market.Env Market.cfg0)
      (Market.exec Market.cfg0 g1 (headOps ++ [.makeOffer 2 100 3 4 a none])) := by
    intro a
    refine Market.exec_reach _ (.init genesis_g1) ?_
    simp only [headOps, List.cons_append, List.nil_append, List.forall_mem_cons, Market.Env, Market.NftOutside,
      Market.SftOutside, Nft.Bridged]
    exact ⟨fun _ => trivial, fun _ => trivial, fun _ => trivial, fun _ => by decide, fun _ h => nomatch h⟩
  exact ⟨_, _, ((Market.exec Market.cfg0 g1 (headOps ++ [.makeOffer 2 100 3 4 4 none])).offers 0).get (by decide +kernel),
    ((Market.exec Market.cfg0 g1 (headOps ++ [.makeOffer 2 100 3 4 6 none])).offers 0).get (by decide +kernel), hr 4, hr 6,
    by decide +kernel, by decide +kernel, by decide +kernel, by decide +kernel, by decide +kernel⟩

/-- The hypotheses of `C176_partial`. -/
example : ∃ l, (Market.demo.listings 0) = some l ∧ l.tokens = .nft 100 [0, 1] ∧
    (call Market.cfg0 Market.demo true 9 0 (.getListingFromId 0)).toOption.map Prod.snd =
      some (.listing false 100 [0, 1] 10 4) ∧ (Market.step Market.cfg0 Market.demo (.buy 2 0)).isOk = true :=
  ⟨(Market.demo.listings 0).get (by decide +kernel), by decide +kernel⟩

/-- The hypotheses of `C176_offer_partial`. -/
example : (call Market.cfg0 offered true 9 0 (.getOfferFromId 0)).toOption.map Prod.snd = some (.offer 100 3 4 2) ∧
    (Market.step Market.cfg0 offered (.acceptOffer 1 0)).isOk = true := by decide +kernel

end Verif.MarketEvm
