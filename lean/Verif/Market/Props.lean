import Verif.Market.Effects

/-!
# Properties of the marketplace: C30–C33, C80–C82

`Paid`, `Delivered` and `Freed` (`Effects.lean`) say what money and tokens do. `Env` describes what the rest of the
chain does: the keyless holding account signs nothing and other pallets use their own holds.
-/

namespace Verif.Market

/-! ## Demonstration -/

def cfg0 : Cfg where
  nft := ⟨1000000, 1000, 100, 997⟩
  sft := ⟨3, 10, 100⟩
  holds := ⟨999, 3⟩
  pid := 7
  maxTokens := 5
  maxOffers := 4
  netFee := 5000
  defaultDur := 100

def g0 : St where
  nft := ⟨fun _ => none, fun _ _ => none, fun _ => ⟨true, true, true⟩, fun _ => ⟨false, none⟩, 0, fun _ _ => none,
    fun _ _ _ => false, ⟨fun _ _ => 0, fun _ => 0⟩, []⟩
  sft := ⟨fun _ => none, fun _ _ => none, fun _ => ⟨true, true, true⟩, fun _ _ => ⟨false, none⟩, 0, fun _ _ _ => false,
    ⟨fun _ _ => 0, fun _ => 0⟩⟩
  hs := ⟨⟨fun _ a => if a = 1 then 100 else if a = 2 then 50 else if a = 3 then 50 else 0, fun _ => 200⟩, fun _ _ => []⟩
  listings := fun _ => none
  bids := fun _ => none
  offers := fun _ => none
  tokenOffers := fun _ _ => []
  sched := fun _ => []
  nextListing := 0
  nextOffer := 0
  nextMarket := 0
  markets := fun _ => none
  feeTo := none
  now := 10
  assetOf := fun _ => 0

theorem genesis_g0 : Genesis cfg0 g0 where
  dur := by decide
  nft := ⟨fun _ => rfl, rfl, fun _ _ => rfl, fun _ _ => rfl, fun _ _ _ => rfl, rfl⟩
  sft := ⟨fun _ => rfl, fun _ _ => rfl, rfl⟩
  hs := by
    refine ⟨fun a => ⟨⟨{1, 2, 3}, fun x hx => ?_, ?_⟩, by simp [g0, U128]⟩, fun _ _ => rfl⟩
    · have h1 : x ≠ 1 := fun h => hx (by simp [h])
      have h2 : x ≠ 2 := fun h => hx (by simp [h])
      have h3 : x ≠ 3 := fun h => hx (by simp [h])
      simp [g0, h1, h2, h3]
    · simp [g0]
  iss := fun a => by simp [g0, U128]
  listings := fun _ => rfl
  bids := fun _ => rfl
  offers := fun _ => rfl
  tokenOffers := fun _ _ => rfl
  sched := fun _ => rfl
  index := fun _ _ => rfl
  now := by simp [g0, U32]

theorem exec_reach {c : Cfg} {G : St → Op → Prop} : ∀ (ops : List Op) {s : St}, Reach c G s → (∀ op ∈ ops, ∀ s, G s op) →
    Reach c G (exec c s ops)
  | [], _, h, _ => h
  | op :: ops, s, h, hg => by
    unfold exec
    refine exec_reach ops ?_ (fun o ho => hg o (List.mem_cons_of_mem _ ho))
    cases he : step c s op with
    | ok s' => exact .step h (hg _ List.mem_cons_self s) he
    | error _ => exact h

/-- Account 1 makes collection 100 with tokens 0-4 and a royalty of 10 % for account 5, and 20 pieces of an SFT; lists
tokens 0 and 1 for 10 (listing 0), auctions token 2 from 5 (listing 1) and 8 pieces (listing 2, 11 blocks); account 2
bids 6 and offers 4 for token 3 (offer 0); account 3 bids 9 on the pieces. -/
def demoOps : List Op :=
  [.nft (.create 1 5 none none (some [(5, 100000)]) false), .sft (.createColl 1 none), .sft (.createToken 1 100 20 none none true),
   .setFeeTo (some 6), .list false 1 (.nft 100 [0, 1]) none 4 10 none none, .list true 1 (.nft 100 [2]) none 4 5 none none,
   .list true 1 (.sft 100 [(0, 8)]) none 4 5 (some 11) none, .bid 2 1 6, .makeOffer 2 100 3 4 4 none, .bid 3 2 9]

def demo : St := exec cfg0 g0 demoOps

theorem demo_env : ∀ op ∈ demoOps, ∀ s, Env cfg0 s op := by
  simp only [demoOps, List.forall_mem_cons, Env, cfg0, NftOutside, SftOutside, Nft.Bridged]
  refine ⟨fun _ => trivial, fun _ => trivial, fun _ => trivial, fun _ => trivial, ?_, ?_, ?_, ?_, ?_, ?_, fun _ h => nomatch h⟩ <;>
    exact fun _ => by decide

theorem demo_reach : Reach cfg0 (Env cfg0) demo := exec_reach _ (.init genesis_g0) demo_env

/-! ## C30: exact distribution -/

/-- C30 (fixed price): a purchase takes exactly the price from the buyer, pays each recipient of the schedule its share
and the seller the rest, hands over the tokens and closes the listing. No hold and no other balance changes. -/
theorem C30_buy {c : Cfg} {s s' : St} (h : Reach c (Env c) s) {who : Acct} {i : Nat} (hw : who ≠ c.holds.pot)
    (hs : step c s (.buy who i) = .ok s') :
    ∃ l, s.listings i = some l ∧ l.auction = false ∧ (∀ b, l.buyer = some b → who = b) ∧ s'.listings i = none ∧
      Paid s.hs s'.hs l.asset who l.seller l.royalties l.price ∧ s'.hs.holds = s.hs.holds ∧
      Delivered s s' l.seller who l.tokens := by
  have hg := h.good (fun _ _ h => h)
  obtain ⟨l, L, hl, ha, hb, hL, ht, ⟨n, f, e⟩, _⟩ := buy_ok hs hg hw
  obtain ⟨g1, g2, g3, g4, g5, g6⟩ := hg.mi.lst i l hl
  obtain ⟨p1, p2, p3, p4, p5, p6⟩ := pay_ok hL g3 g2 hg.mi.hi.sound (hg.mi.iss _)
  have hd := (unlockTransfer_delivered (by exact hg.lk.nr) (by exact hg.lk.si) ht).1
  refine ⟨l, hl, ha, hb, by rw [e]; exact upd_same _ _ _, ⟨p1, fun y => ?_, ?_, ?_⟩, by rw [e]; rfl, ?_⟩
  · rw [Nat.add_assoc, e]; exact p6 y
  · rw [e]; exact p5
  · rw [e]; exact p3
  · revert hd
    cases l.tokens <;> exact fun h => h

example : (step cfg0 demo (.buy 2 0)).toOption.isSome = true ∧
    ((step cfg0 demo (.buy 2 0)).toOption.map (fun s => (s.hs.ledger.bal 4 2, s.hs.ledger.bal 4 1, s.hs.ledger.bal 4 5,
      Nft.ownerOf s.nft 100 1))) = some (30, 109, 1, some 2) := by decide +kernel

/-- C30 (offers): accepting an offer takes exactly the offered amount from the offerer's hold, pays each recipient of
the schedule its share and the accepting owner the rest, and hands over the token. -/
theorem C30_accept {c : Cfg} {s s' : St} (h : Reach c (Env c) s) {who : Acct} {i : Nat}
    (hs : step c s (.acceptOffer who i) = .ok s') :
    ∃ o roy, s.offers i = some o ∧ Nft.ownerOf s.nft o.coll o.serial = some who ∧ s'.offers i = none ∧
      bundle c s (.nft o.coll [o.serial]) o.market = .ok roy ∧
      Paid s.hs s'.hs o.asset c.holds.pot who roy o.amount ∧
      (∀ a y, Holds.holdOf (s'.hs.holds a y) c.pid + (if a = o.asset ∧ y = o.buyer then o.amount else 0) =
        Holds.holdOf (s.hs.holds a y) c.pid) ∧
      Delivered s s' who o.buyer (.nft o.coll [o.serial]) := by
  have hg := h.good (fun _ _ h => h)
  obtain ⟨o, roy, hs1, s1, ho, hw, hr, e1, e2, ⟨n, f, e3⟩, e4, _⟩ := acceptOffer_ok hs hg
  obtain ⟨⟨ls, sc, ix, eu⟩, gu, _, _⟩ := unlist_ok hg o.coll o.serial
  obtain ⟨q0, q1, _, q2, q4, q5, q3⟩ := spendPay_ok e1 (bundle_good hr) (hg.mi.offer i o ho).2.2.1 hg.mi.hi (hg.mi.iss _)
  have hd := (unlockTransfer_delivered (by exact gu.lk.nr) (by exact gu.lk.si) e2).1
  have hhs : s'.hs = hs1 := by rw [e4, e3]
  have hr' : bundle c s (.nft o.coll [o.serial]) o.market = .ok roy := by rw [eu] at hr; exact hr
  refine ⟨o, roy, ho, hw, by rw [e4]; exact upd_same _ _ _, hr', ⟨q0, fun y => ?_, ?_, ?_⟩, fun a y => ?_, ?_⟩
  · rw [hhs, Nat.add_assoc]; exact q5 y
  · rw [hhs]; exact q4
  · rw [hhs]; exact q2
  · rw [hhs]
    have := q3 a y c.pid
    simpa using this
  · have e5 : s'.nft = s1.nft ∧ s'.sft = s1.sft := by rw [e4]; exact ⟨rfl, rfl⟩
    have e6 : (unlist s o.coll o.serial).nft = s.nft ∧ (unlist s o.coll o.serial).sft = s.sft := by rw [eu]; exact ⟨rfl, rfl⟩
    unfold Delivered at hd ⊢
    rw [e5.1, e5.2]
    dsimp only at hd ⊢
    rw [e6.1, e6.2] at hd
    exact hd

example : (step cfg0 demo (.acceptOffer 1 0)).toOption.isSome = true := by decide +kernel

/-- The block hook, listing by listing. -/
theorem nextBlock_split {c : Cfg} {s s' : St} (hg : Good c s []) {pre post : List Nat} {i : Nat}
    (hs : nextBlock c s (pre ++ i :: post) = .ok s') :
    ∃ s1, s1 = pre.foldl (closeOne c) { s with now := s.now + 1, sched := upd s.sched (s.now + 1) [] } ∧
      s' = post.foldl (closeOne c) (closeOne c s1 i) ∧ Good c s1 (i :: post) ∧ i ∉ post ∧ post.Nodup ∧
      s1.listings i = s.listings i ∧ s1.bids i = s.bids i ∧ ∃ l, s.listings i = some l ∧ l.close = s.now + 1 := by
  simp only [nextBlock, bind_ok, ensure_ok, pure_ok] at hs
  obtain ⟨_, ht, _, hp, rfl⟩ := hs
  have hnd : (pre ++ i :: post).Nodup := hp.nodup_iff.mpr (hg.st.nodup _)
  have h0 : Good c { s with now := s.now + 1, sched := upd s.sched (s.now + 1) [] } (pre ++ i :: post) :=
    ⟨hg.dur, hg.st.tick hp ht, hg.lk, hg.mi⟩
  have hmem : ∃ l, s.listings i = some l ∧ l.close = s.now + 1 := by
    have : i ∈ s.sched (s.now + 1) := hp.mem_iff.mp (by simp)
    obtain ⟨l, hl, hc, _⟩ := (hg.st.at_ _ _).mp this
    exact ⟨l, hl, hc⟩
  have key : ∀ (pre : List Nat) (t : St), Good c t (pre ++ i :: post) → (pre ++ i :: post).Nodup →
      Good c (pre.foldl (closeOne c) t) (i :: post) ∧ (pre.foldl (closeOne c) t).listings i = t.listings i ∧
      (pre.foldl (closeOne c) t).bids i = t.bids i := by
    intro pre
    induction pre with
    | nil => exact fun t h _ => ⟨h, rfl, rfl⟩
    | cons j pre ih =>
      intro t h hn
      rw [List.cons_append, List.nodup_cons] at hn
      obtain ⟨g, hfr⟩ := closeOne_good h hn.1
      obtain ⟨k1, k2, k3⟩ := ih (closeOne c t j) g hn.2
      have hne : i ≠ j := fun he => hn.1 (by simp [he])
      rw [List.foldl_cons]
      exact ⟨k1, k2.trans (hfr i hne).1, k3.trans (hfr i hne).2⟩
  obtain ⟨k1, k2, k3⟩ := key pre _ h0 hnd
  have hnd' := hnd.of_append_right
  rw [List.nodup_cons] at hnd'
  exact ⟨_, rfl, by rw [List.foldl_append, List.foldl_cons], k1, hnd'.1, hnd'.2, k2, k3, hmem⟩

/-- C30 (auctions) and the other endings: when the block hook reaches listing `i` (in state `s1`, after the listings
`pre` before it), an auction with a winning bid is either sold — the bid is taken from the winner's hold and distributed
exactly, the tokens go to the winner — or the winner gets the whole bid back; a listing without bid is freed. -/
theorem C30_auction {c : Cfg} {s s' : St} (h : Reach c (Env c) s) {pre post : List Nat} {i : Nat}
    (hs : step c s (.nextBlock (pre ++ i :: post)) = .ok s') :
    ∃ s1 s2 l, s1 = pre.foldl (closeOne c) { s with now := s.now + 1, sched := upd s.sched (s.now + 1) [] } ∧
      s2 = closeOne c s1 i ∧ s' = post.foldl (closeOne c) s2 ∧
      s.listings i = some l ∧ l.close = s.now + 1 ∧ s2.listings i = none ∧ s2.bids i = none ∧
      (s.bids i = none → s2.hs = s1.hs ∧ Freed s1 s2 l.seller l.tokens) ∧
      (∀ w x, s.bids i = some (w, x) →
        (∀ a y, Holds.holdOf (s2.hs.holds a y) c.pid + (if a = l.asset ∧ y = w then x else 0) =
          Holds.holdOf (s1.hs.holds a y) c.pid) ∧
        ((Paid s1.hs s2.hs l.asset c.holds.pot l.seller l.royalties x ∧ Delivered s1 s2 l.seller w l.tokens) ∨
         ((∀ y, s2.hs.ledger.bal l.asset y + (if y = c.holds.pot then x else 0) =
            s1.hs.ledger.bal l.asset y + if y = w then x else 0) ∧
          (∀ a, a ≠ l.asset → s2.hs.ledger.bal a = s1.hs.ledger.bal a) ∧ s2.nft = s1.nft ∧ s2.sft = s1.sft))) := by
  have hg := h.good (fun _ _ h => h)
  obtain ⟨s1, e1, e2, g1, _, _, k1, k2, l, hl, hc⟩ := nextBlock_split hg hs
  have hl1 : s1.listings i = some l := k1.trans hl
  obtain ⟨o1, _, o3, o4⟩ := closeOne_outcome g1 hl1
  refine ⟨s1, closeOne c s1 i, l, e1, rfl, e2, hl, hc, o1, ?_, fun hb => ?_, fun w x hb => ?_⟩
  · cases hb : s1.bids i with
    | none => rw [(o3 hb).2.1]; exact hb
    | some b => rw [(o4 b hb).1]; exact upd_same _ _ _
  · obtain ⟨p1, _, p2⟩ := o3 (k2.trans hb)
    exact ⟨p1, p2⟩
  · obtain ⟨_, p1, p2⟩ := o4 (w, x) (k2.trans hb)
    exact ⟨p1, p2⟩

/-- Let `n` blocks pass in which nothing is due. -/
def wait (n : Nat) : List Op := List.replicate n (.nextBlock [])

/-- The pieces are sold to account 3 after 40 blocks (the bid extended the auction). -/
example : let s := exec cfg0 demo (wait 39 ++ [.nextBlock [2]])
    s.now = 50 ∧ s.listings 2 = none ∧ s.hs.ledger.bal 4 3 = 41 ∧ s.hs.ledger.bal 4 1 = 109 ∧
    Sft.free s.sft 100 0 3 = 8 ∧ Sft.res s.sft 100 0 1 = 0 := by decide +kernel

/-- A share is the exact share rounded to the nearest unit. -/
theorem C30_share_nearest (p x : Nat) : 2 * (1000000 * share p x) ≤ 2 * (p * x) + 1000000 ∧
    2 * (p * x) ≤ 2 * (1000000 * share p x) + 1000000 := share_nearest p x

/-! ## C80: can a listing be bought -/

/-- The part of the payment loop that has to succeed. -/
theorem payAll_succeeds {a : AssetId} {src : Acct} : ∀ {xs : List (Acct × Nat)} {L : Ledger}, (xs.map Prod.snd).sum ≤ L.bal a src →
    ∃ L', Holds.payAll L a src xs = .ok L'
  | [], L, _ => ⟨L, rfl⟩
  | x :: xs, L, h => by
    rw [List.map_cons, List.sum_cons] at h
    unfold Holds.payAll
    split
    · exact payAll_succeeds (by omega)
    · have hx : x.2 ≤ L.bal a src := by omega
      have : ∃ L1, L.transfer a src x.1 x.2 = .ok L1 := by
        unfold Ledger.transfer
        rw [if_pos hx]
        exact ⟨_, rfl⟩
      obtain ⟨L1, h1⟩ := this
      obtain ⟨_, _, _, t4⟩ := Ledger.transfer_ok h1
      have hb := t4 src
      rw [if_pos rfl] at hb
      obtain ⟨L2, h2⟩ := payAll_succeeds (a := a) (src := src) (xs := xs) (L := L1) (by omega)
      exact ⟨L2, by rw [h1]; exact h2⟩

/-- C80 (partial): a listing whose price is not small compared with its royalties — the seller's share is at least half
a unit per royalty recipient — is bought by every permitted account that has the price, if the tokens can be handed to
it. Missing: tiny prices, see `C80_refuted`. -/
theorem C80_buyable_partial {c : Cfg} {s : St} (h : Reach c (Env c) s) {who : Acct} {i : Nat} {l : Listing}
    (hl : s.listings i = some l) (ha : l.auction = false) (hb : ∀ b, l.buyer = some b → who = b)
    (hbal : l.price ≤ s.hs.ledger.bal l.asset who)
    (hsm : (l.royalties.map Prod.snd).sum * l.price + 499999 * l.royalties.length ≤ 1000000 * l.price)
    (ht : ∃ t, unlockTransfer c s l.seller who l.tokens = .ok t) :
    ∃ s', step c s (.buy who i) = .ok s' := by
  have hg := h.good (fun _ _ h => h)
  obtain ⟨g1, g2, g3, g4, g5, g6⟩ := hg.mi.lst i l hl
  have hfit : shares l.royalties l.price ≤ l.price := by
    have := shares_mul l.price l.royalties
    omega
  obtain ⟨e1, _⟩ := payouts_spec (seller := l.seller) g3 g2 hfit
  obtain ⟨L, hL⟩ := payAll_succeeds (a := l.asset) (src := who) (xs := payouts l.seller l.royalties l.price)
    (L := s.hs.ledger) (by rw [e1]; exact hbal)
  have htot : Holds.total (payouts l.seller l.royalties l.price) ≤ s.hs.ledger.bal l.asset who := by
    unfold Holds.total; rw [e1, Nat.mod_eq_of_lt g2]; exact hbal
  have ht' : ∃ t, unlockTransfer c (setLedger (removeListing s i l) L) l.seller who l.tokens = .ok t := by
    obtain ⟨t, ht⟩ := ht
    revert ht
    cases l.tokens with
    | nft id ns =>
      simp only [unlockTransfer, bind_ok, ensure_ok, pure_ok]
      rintro ⟨_, h1, x, h2, _⟩
      exact ⟨_, (), h1, x, h2, rfl⟩
    | sft id xs =>
      simp only [unlockTransfer, bind_ok, pure_ok]
      rintro ⟨x, h1, y, h2, _⟩
      exact ⟨_, x, h1, y, h2, rfl⟩
  obtain ⟨t, ht'⟩ := ht'
  refine ⟨t, ?_⟩
  simp only [step, buy, Holds.splitTransfer, bind_ok, okOr_ok, ensure_ok]
  exact ⟨l, hl, (), ha, (), hb, L, ⟨(), htot, hL⟩, ht'⟩

example : ∃ l, demo.listings 0 = some l ∧ l.auction = false ∧ l.buyer = none ∧ l.price ≤ demo.hs.ledger.bal l.asset 2 ∧
    (l.royalties.map Prod.snd).sum * l.price + 499999 * l.royalties.length ≤ 1000000 * l.price ∧
    (unlockTransfer cfg0 demo l.seller 2 l.tokens).toOption.isSome = true :=
  ⟨(demo.listings 0).get (by decide +kernel), by decide +kernel⟩

/-- Token 0 of a collection with three royalties of 25.0001 %, listed for 2. -/
def dustOps : List Op :=
  [.nft (.create 1 5 none none (some [(5, 250001), (6, 250001), (8, 250001)]) false),
   .list false 1 (.nft 100 [0]) none 4 2 none none]

def dust : St := exec cfg0 g0 dustOps

theorem dust_reach : Reach cfg0 (Env cfg0) dust := by
  refine exec_reach _ (.init genesis_g0) ?_
  simp only [dustOps, List.forall_mem_cons, Env, cfg0, NftOutside, Nft.Bridged]
  exact ⟨fun _ => trivial, fun _ => by decide, fun _ h => nomatch h⟩

/-- C80 as stated is false: the rounded royalties of a small price can exceed it, and then nobody can buy the listing. -/
theorem C80_refuted : ∃ s l, Reach cfg0 (Env cfg0) s ∧ s.listings 0 = some l ∧ l.auction = false ∧ l.buyer = none ∧
    l.price = 2 ∧ ∀ who s', who ≠ cfg0.holds.pot → step cfg0 s (.buy who 0) ≠ .ok s' := by
  refine ⟨dust, (dust.listings 0).get (by decide +kernel), dust_reach, by decide +kernel, by decide +kernel,
    by decide +kernel, by decide +kernel, fun who s' hw hs => ?_⟩
  obtain ⟨l, hl, _, _, _, hp, _⟩ := C30_buy dust_reach hw hs
  have hl' : dust.listings 0 = some ((dust.listings 0).get (by decide +kernel)) := by decide +kernel
  rw [hl'] at hl
  have hlq := Option.some.inj hl
  have := hp.fit
  rw [← hlq] at this
  revert this
  decide +kernel

/-! ## C31: locked exactly while listed -/

/-- C31: while a listing of NFTs is open, each of its tokens is locked by it and owned by the seller, so (by
`Nft.C25_only_owner_moves`) it can neither be moved nor burnt nor listed a second time. -/
theorem C31_locked {c : Cfg} {s : St} (h : Reach c (Env c) s) {i : Nat} {l : Listing} {id : Nat} {ns : List Nat}
    (hl : s.listings i = some l) (ht : l.tokens = .nft id ns) :
    ns ≠ [] ∧ ns.Nodup ∧ ∀ n ∈ ns, s.nft.locks id n = some i ∧ Nft.ownerOf s.nft id n = some l.seller :=
  (h.good (fun _ _ h => h)).lk.nft i l id ns hl ht

example : ∃ l, demo.listings 0 = some l ∧ l.tokens = .nft 100 [0, 1] ∧ demo.nft.locks 100 1 = some 0 :=
  ⟨(demo.listings 0).get (by decide +kernel), by decide +kernel⟩

/-- C31: two open listings never contain the same NFT. -/
theorem C31_disjoint {c : Cfg} {s : St} (h : Reach c (Env c) s) {i j : Nat} {l l' : Listing} {id : Nat} {ns ms : List Nat}
    (hl : s.listings i = some l) (ht : l.tokens = .nft id ns) (hl' : s.listings j = some l') (ht' : l'.tokens = .nft id ms)
    (hij : i ≠ j) : ∀ n ∈ ns, n ∉ ms := by
  intro n hn hm
  have h1 := ((C31_locked h hl ht).2.2 n hn).1
  have h2 := ((C31_locked h hl' ht').2.2 n hm).1
  rw [h1] at h2
  cases h2
  exact hij rfl

/-- C31: for every SFT and account, the reserved quantity covers all open listings of the account together. -/
theorem C31_reserved {c : Cfg} {s : St} (h : Reach c (Env c) s) (id n : Nat) (a : Acct) :
    ∃ T, TotalIs (fun i => listedQty (s.listings i) id n a) T ∧ T ≤ Sft.res s.sft id n a := by
  obtain ⟨T, h1, h2⟩ := (h.good (fun _ _ h => h)).lk.sft id n a
  exact ⟨T, h1, by omega⟩

example : listedQty (demo.listings 2) 100 0 1 = 8 ∧ Sft.res demo.sft 100 0 1 = 8 := by decide +kernel

/-- C31 (partial): cancelling a listing frees exactly its tokens. Expiry without a bid does so too (`C30_auction`), and
purchases unlock what they deliver (`C30_buy`). Missing: accepting an offer for one token of a bundle and failed auction
settlements, see `C31_refuted`. -/
theorem C31_cancel_unlocks_partial {c : Cfg} {s s' : St} (h : Reach c (Env c) s) {who : Acct} {i : Nat}
    (hs : step c s (.cancelSale who i) = .ok s') :
    ∃ l, s.listings i = some l ∧ l.seller = who ∧ s.bids i = none ∧ s'.listings i = none ∧
      Freed s s' who l.tokens ∧ s'.hs = s.hs := by
  have hg := h.good (fun _ _ h => h)
  obtain ⟨l, hl, hw, hb, e, _⟩ := cancelSale_ok hs hg
  have hf := freed hg hl
  rw [← e, hw] at hf
  have hsoft : ∃ n f, unlockSoft (removeListing s i l) l.seller l.tokens = { removeListing s i l with nft := n, sft := f } := by
    cases l.tokens <;> exact ⟨_, _, rfl⟩
  obtain ⟨n, f, e'⟩ := hsoft
  rw [e'] at e
  refine ⟨l, hl, hw, ?_, by rw [e]; exact upd_same _ _ _, hf, by rw [e]; rfl⟩
  cases hbb : s.bids i with
  | none => rfl
  | some b =>
    have := hb ((hg.mi.lst i l hl).2.2.2.2.2 b hbb).1
    rw [hbb] at this; cases this

example : (step cfg0 demo (.cancelSale 1 0)).toOption.isSome = true := by decide +kernel

/-- C31: the seller can always cancel a listing nobody has bid on. -/
theorem C31_cancel_succeeds {c : Cfg} {s : St} (h : Reach c (Env c) s) {i : Nat} {l : Listing} (hl : s.listings i = some l)
    (hb : s.bids i = none) : ∃ s', step c s (.cancelSale l.seller i) = .ok s' := by
  have hg := h.good (fun _ _ h => h)
  have hu : ∃ s1, unlockTokens s l.seller l.tokens = .ok s1 := by
    cases ht : l.tokens with
    | nft id ns => exact ⟨_, rfl⟩
    | sft id xs =>
      have hd := hg.lk.drop hl
      rw [ht] at hd
      obtain ⟨t, hu⟩ := hd.can_unreserve (hg.lk.nz i l id xs hl ht)
      exact ⟨{ s with sft := t }, by simp only [unlockTokens, hu]; rfl⟩
  obtain ⟨s1, h1⟩ := hu
  refine ⟨removeListing s1 i l, ?_⟩
  simp only [step, cancelSale, bind_ok, okOr_ok, ensure_ok, pure_ok]
  exact ⟨l, hl, (), rfl, (), fun _ => hb, s1, h1, rfl⟩

/-- Tokens 0 and 1 are listed together, an offer for token 0 is accepted. -/
def bundleOps : List Op :=
  [.nft (.create 1 5 none none none false), .list false 1 (.nft 100 [0, 1]) none 4 10 none none,
   .makeOffer 2 100 0 4 4 none, .acceptOffer 1 0]

theorem bundle_env : ∀ op ∈ bundleOps, ∀ s, Env cfg0 s op := by
  simp only [bundleOps, List.forall_mem_cons, Env, cfg0, NftOutside, Nft.Bridged]
  exact ⟨fun _ => trivial, fun _ => by decide, fun _ => by decide, fun _ => trivial, fun _ h => nomatch h⟩

/-- C31 as stated is false: accepting an offer for one token of a bundle closes the listing and leaves the other token
locked in the hands of its owner, who can neither transfer, burn nor list it. -/
theorem C31_refuted : ∃ s, Reach cfg0 (Env cfg0) s ∧ s.listings 0 = none ∧ s.nft.locks 100 1 = some 0 ∧
    Nft.ownerOf s.nft 100 1 = some 1 ∧
    (step cfg0 s (.nft (.transfer 1 100 [1] 2))).toOption = none ∧ (step cfg0 s (.nft (.burn 1 100 1))).toOption = none ∧
    (step cfg0 s (.cancelSale 1 0)).toOption = none ∧
    (step cfg0 s (.list false 1 (.nft 100 [1]) none 4 1 none none)).toOption = none :=
  ⟨exec cfg0 g0 bundleOps, exec_reach _ (.init genesis_g0) bundle_env, by decide +kernel⟩

/-- Token 0 is auctioned, account 2 bids, the owner switches transfers off, the auction ends. -/
def failHead : List Op :=
  [.nft (.create 1 5 none none none false), .list true 1 (.nft 100 [0]) none 4 5 (some 2) none, .bid 2 0 6,
   .nft (.setFlags 1 100 ⟨false, true, true⟩)]

def failOps : List Op := failHead ++ wait 39 ++ [.nextBlock [0]]

theorem failHead_env : ∀ op ∈ failHead, ∀ s, Env cfg0 s op := by
  simp only [failHead, List.forall_mem_cons, Env, cfg0, NftOutside, Nft.Bridged]
  exact ⟨fun _ => trivial, fun _ => by decide, fun _ => by decide, fun _ => trivial, fun _ h => nomatch h⟩

theorem wait_env {n : Nat} : ∀ op ∈ wait n, ∀ s, Env cfg0 s op := by
  intro op ho s
  rw [wait, List.mem_replicate] at ho
  rw [ho.2]; exact trivial

theorem fail_env : ∀ op ∈ failOps, ∀ s, Env cfg0 s op := by
  intro op ho
  rcases List.mem_append.mp ho with ho | ho
  · rcases List.mem_append.mp ho with ho | ho
    · exact failHead_env op ho
    · exact wait_env op ho
  · rw [List.mem_singleton] at ho
    subst ho
    exact fun _ => trivial

/-- C31 as stated is false in a second way: an auction whose settlement fails leaves the token locked (the bidder gets
the money back). -/
theorem C31_settlement_refuted : ∃ s, Reach cfg0 (Env cfg0) s ∧ s.listings 0 = none ∧ s.nft.locks 100 0 = some 0 ∧
    Nft.ownerOf s.nft 100 0 = some 1 ∧ s.hs.ledger.bal 4 2 = 50 ∧ (step cfg0 s (.cancelSale 1 0)).toOption = none :=
  ⟨exec cfg0 g0 failOps, exec_reach _ (.init genesis_g0) fail_env, by decide +kernel⟩

end Verif.Market
