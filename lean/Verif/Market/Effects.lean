import Verif.Market.Good

/-! # What completed sales do: specification and exact effects -/

namespace Verif.Market

/-! ## specification -/

/-- Money moved from `src`: `price` leaves it, every entry of the schedule receives its rounded share, the seller
the rest; nothing else changes. -/
structure Paid (h h' : Holds.St) (a : AssetId) (src seller : Acct) (roy : List (Acct × Nat)) (price : Nat) : Prop where
  fit : shares roy price ≤ price
  bal : ∀ y, h'.ledger.bal a y + (if y = src then price else 0) =
    h.ledger.bal a y + shareOf roy price y + (if y = seller then price - shares roy price else 0)
  others : ∀ b, b ≠ a → h'.ledger.bal b = h.ledger.bal b
  iss : h'.ledger.iss = h.ledger.iss

/-- The tokens went from the seller to the buyer and are unlocked; other tokens are untouched. -/
def Delivered (s s' : St) (seller buyer : Acct) : Tokens → Prop
  | .nft id ns =>
    (∀ n ∈ ns, Nft.ownerOf s.nft id n = some seller ∧ Nft.ownerOf s'.nft id n = some buyer ∧ s'.nft.locks id n = none) ∧
    (∀ j m, ¬ (j = id ∧ m ∈ ns) → Nft.ownerOf s'.nft j m = Nft.ownerOf s.nft j m ∧ s'.nft.locks j m = s.nft.locks j m) ∧
    s'.sft = s.sft
  | .sft id xs =>
    (∀ j m a, Sft.free s'.sft j m a = Sft.free s.sft j m a + (if j = id ∧ a = buyer then Sft.qty xs m else 0)) ∧
    (∀ j m a, Sft.res s'.sft j m a + (if j = id ∧ a = seller then Sft.qty xs m else 0) = Sft.res s.sft j m a) ∧
    s'.nft = s.nft

/-- The tokens are unlocked for their owner; other tokens are untouched. -/
def Freed (s s' : St) (seller : Acct) : Tokens → Prop
  | .nft id ns =>
    (∀ n ∈ ns, Nft.ownerOf s'.nft id n = some seller ∧ s'.nft.locks id n = none) ∧
    (∀ j m, Nft.ownerOf s'.nft j m = Nft.ownerOf s.nft j m) ∧
    (∀ j m, ¬ (j = id ∧ m ∈ ns) → s'.nft.locks j m = s.nft.locks j m) ∧ s'.sft = s.sft
  | .sft id xs =>
    (∀ j m a, Sft.free s'.sft j m a = Sft.free s.sft j m a + (if j = id ∧ a = seller then Sft.qty xs m else 0)) ∧
    (∀ j m a, Sft.res s'.sft j m a + (if j = id ∧ a = seller then Sft.qty xs m else 0) = Sft.res s.sft j m a) ∧
    s'.nft = s.nft

/-- A share is rounded to the nearest unit. -/
theorem share_nearest (p x : Nat) : 2 * (1000000 * share p x) ≤ 2 * (p * x) + 1000000 ∧
    2 * (p * x) ≤ 2 * (1000000 * share p x) + 1000000 := by
  unfold share
  constructor <;> omega

/-! ## effects -/

theorem nft_deliver {c : Nft.Cfg} {t t' : Nft.St} {id : Nat} {ns : List Nat} {src dst : Acct}
    (hr : Nft.Reach c Nft.Bridged t) (h : Nft.doTransfer c t id ns src dst = .ok t') :
    (∀ n ∈ ns, Nft.ownerOf t id n = some src ∧ Nft.ownerOf t' id n = some dst) ∧
    (∀ j m, ¬ (j = id ∧ m ∈ ns) → Nft.ownerOf t' j m = Nft.ownerOf t j m) ∧ t'.locks = t.locks := by
  have hr' : Nft.Reach c Nft.Bridged t' := hr.step (op := .transfer src id ns dst) trivial h
  have hl := (nft_locks (op := .transfer src id ns dst) h trivial).1
  simp only [Nft.doTransfer, bind_ok, ensure_ok, okOr_ok, pure_ok] at h
  obtain ⟨_, _, _, hne, _, hf, k, hk, _, hown, o, ho, rfl⟩ := h
  have hci := hr.bi.coll id k hk
  have hk' : (Nft.clearApprovals (Nft.setColl t id { k with owned := o }) id ns).coll id = some { k with owned := o } :=
    upd_same _ _ _
  have hci' := hr'.bi.coll id _ hk'
  have hto := Nft.transfer_owns (hr.ai.owners id k hk) ho
  refine ⟨fun n hn => ?_, fun j m hjm => ?_, hl⟩
  · rw [Nft.ownerOf_some hk, Nft.ownerOf_some hk', Nft.getOwner_iff hci.uniq, Nft.getOwner_iff hci'.uniq]
    exact ⟨Nft.isTokenOwner_iff.mp (hown n hn).1, (hto dst n).mpr (Or.inr ⟨rfl, hn⟩)⟩
  · by_cases hj : j = id
    · subst hj
      have hm : m ∉ ns := fun hx => hjm ⟨rfl, hx⟩
      rw [Nft.ownerOf_some hk, Nft.ownerOf_some hk']
      ext a
      rw [Nft.getOwner_iff hci.uniq, Nft.getOwner_iff hci'.uniq, hto]
      constructor
      · rintro (h1 | h1)
        · exact h1.1
        · exact absurd h1.2 hm
      · exact fun h1 => Or.inl ⟨h1, fun hx => hm hx.2⟩
    · have : (Nft.clearApprovals (Nft.setColl t id { k with owned := o }) id ns).coll j = t.coll j := upd_ne _ _ hj
      unfold Nft.ownerOf
      rw [this]

theorem unlockTransfer_delivered {c : Cfg} {s s' : St} {src dst : Acct} {t : Tokens}
    (hr : Nft.Reach c.nft Nft.Bridged s.nft) (hsi : Sft.SI c.sft s.sft) (h : unlockTransfer c s src dst t = .ok s') :
    Delivered s s' src dst t ∧ src ≠ dst := by
  cases t with
  | nft id ns =>
    simp only [unlockTransfer, bind_ok, ensure_ok, pure_ok] at h
    obtain ⟨_, _, t, h1, rfl⟩ := h
    have hne : src ≠ dst := by
      simp only [Nft.doTransfer, bind_ok, ensure_ok, okOr_ok, pure_ok] at h1
      obtain ⟨_, _, _, hne, _⟩ := h1
      exact hne
    obtain ⟨d1, d2, d3⟩ := nft_deliver (unlockNft_reach id ns hr) h1
    have hc := (unlockNft_coll id ns s.nft).1
    refine ⟨⟨fun n hn => ?_, fun j m hjm => ?_, rfl⟩, hne⟩
    · dsimp only
      refine ⟨?_, (d1 n hn).2, ?_⟩
      · rw [← Nft.ownerOf_congr hc]; exact (d1 n hn).1
      · rw [d3, unlockNft_locks, if_pos ⟨rfl, hn⟩]
    · dsimp only
      refine ⟨?_, ?_⟩
      · rw [d2 j m hjm, Nft.ownerOf_congr hc]
      · rw [d3, unlockNft_locks, if_neg hjm]
  | sft id xs =>
    simp only [unlockTransfer, bind_ok, pure_ok] at h
    obtain ⟨t1, h1, t2, h2, rfl⟩ := h
    obtain ⟨i, e1, e2⟩ := unreserveAll_ok (c := c.sft) h1
    obtain ⟨_, _, _, _, hne, m⟩ := Sft.transfer_ok (i hsi) h2
    refine ⟨⟨fun j n a => ?_, fun j n a => ?_, rfl⟩, hne⟩
    · dsimp only
      by_cases hj : j = id
      · subst hj
        have hm := m.free n a
        have he := e2 j n a
        by_cases ha : a = src
        · subst ha
          rw [if_pos ⟨rfl, rfl⟩] at he
          rw [if_neg (fun hx => hne hx.2)]
          rw [if_pos rfl, if_neg hne] at hm
          omega
        · rw [if_neg (fun hx => ha hx.2)] at he
          rw [if_neg ha] at hm
          by_cases hb : a = dst
          · rw [if_pos ⟨rfl, hb⟩]; rw [if_pos hb] at hm; omega
          · rw [if_neg (fun hx => hb hx.2)]; rw [if_neg hb] at hm; omega
      · have he := e2 j n a
        rw [if_neg (fun hx => hj hx.1)] at he ⊢
        rw [Nat.add_zero, ← Nat.add_zero (Sft.free s.sft j n a), ← he]
        unfold Sft.free
        rw [m.other j hj]
    · dsimp only
      rw [← e1 j n a]
      congr 1
      by_cases hj : j = id
      · subst hj; exact m.res n a
      · unfold Sft.res; rw [m.other j hj]

/-- The tokens of an open listing are freed when it is removed and unlocked. -/
theorem freed {c : Cfg} {s : St} {i : Nat} {l : Listing} {pend : List Nat} (hg : Good c s pend) (hl : s.listings i = some l) :
    Freed s (unlockSoft (removeListing s i l) l.seller l.tokens) l.seller l.tokens := by
  cases ht : l.tokens with
  | nft id ns =>
    obtain ⟨h0, h1, h2⟩ := hg.lk.nft i l id ns hl ht
    have hc := (unlockNft_coll id ns s.nft).1
    refine ⟨fun n hn => ?_, fun j m => ?_, fun j m hjm => ?_, rfl⟩
    · dsimp only [unlockSoft, removeListing]
      refine ⟨?_, ?_⟩
      · rw [Nft.ownerOf_congr hc]; exact (h2 n hn).2
      · rw [unlockNft_locks, if_pos ⟨rfl, hn⟩]
    · dsimp only [unlockSoft, removeListing]
      exact Nft.ownerOf_congr hc j m
    · dsimp only [unlockSoft, removeListing]
      rw [unlockNft_locks, if_neg hjm]
  | sft id xs =>
    have hd := hg.lk.drop hl
    rw [ht] at hd
    obtain ⟨t, hu⟩ := hd.can_unreserve (hg.lk.nz i l id xs hl ht)
    obtain ⟨_, e1, e2⟩ := unreserveAll_ok (c := c.sft) hu
    have : (unlockSoft (removeListing s i l) l.seller (.sft id xs)).sft = t := unreserveSoft_eq hu
    refine ⟨fun j n a => ?_, fun j n a => ?_, rfl⟩
    · rw [this]; exact e2 j n a
    · rw [this]; exact e1 j n a

/-- Outcome of closing listing `i` at its closing block. -/
theorem closeOne_outcome {c : Cfg} {s : St} {i : Nat} {l : Listing} {pend : List Nat} (hg : Good c s pend)
    (hl : s.listings i = some l) :
    (closeOne c s i).listings i = none ∧ (closeOne c s i).offers = s.offers ∧
    (s.bids i = none → (closeOne c s i).hs = s.hs ∧ (closeOne c s i).bids = s.bids ∧
      Freed s (closeOne c s i) l.seller l.tokens) ∧
    (∀ b, s.bids i = some b → (closeOne c s i).bids = upd s.bids i none ∧
      (∀ a y, Holds.holdOf ((closeOne c s i).hs.holds a y) c.pid + (if a = l.asset ∧ y = b.1 then b.2 else 0) =
        Holds.holdOf (s.hs.holds a y) c.pid) ∧
      ((Paid s.hs (closeOne c s i).hs l.asset c.holds.pot l.seller l.royalties b.2 ∧
          Delivered s (closeOne c s i) l.seller b.1 l.tokens) ∨
        ((∀ y, (closeOne c s i).hs.ledger.bal l.asset y + (if y = c.holds.pot then b.2 else 0) =
            s.hs.ledger.bal l.asset y + if y = b.1 then b.2 else 0) ∧
          (∀ a, a ≠ l.asset → (closeOne c s i).hs.ledger.bal a = s.hs.ledger.bal a) ∧
          (closeOne c s i).nft = s.nft ∧ (closeOne c s i).sft = s.sft))) := by
  have hf := freed hg hl
  have hsoft : ∃ n f, unlockSoft (removeListing s i l) l.seller l.tokens = { removeListing s i l with nft := n, sft := f } := by
    cases l.tokens <;> exact ⟨_, _, rfl⟩
  obtain ⟨g1, g2, g3, g4, g5, g6⟩ := hg.mi.lst i l hl
  unfold closeOne
  rw [hl]
  dsimp only
  cases hb : s.bids i with
  | none =>
    have e : (if l.auction = true then closeAuction c (removeListing s i l) i l
        else unlockSoft (removeListing s i l) l.seller l.tokens) = unlockSoft (removeListing s i l) l.seller l.tokens := by
      split
      · unfold closeAuction
        rw [show (removeListing s i l).bids i = none from hb]
      · rfl
    rw [e]
    obtain ⟨n, f, e'⟩ := hsoft
    refine ⟨?_, ?_, fun _ => ⟨?_, ?_, hf⟩, fun b hb' => by cases hb'⟩
    · rw [e']; exact upd_same _ _ _
    · rw [e']; rfl
    · rw [e']; rfl
    · rw [e']; rfl
  | some b =>
    obtain ⟨b1, b2, b3⟩ := hg.mi.bid i b hb
    have hcov := hg.mi.covers hb
    rw [g1] at hcov
    rw [if_pos (g6 b hb).1]
    unfold closeAuction
    rw [show (removeListing s i l).bids i = some b from hb]
    dsimp only
    cases hs : settle c { removeListing s i l with bids := upd (removeListing s i l).bids i none } b.1 l.seller l.asset
        l.tokens b.2 l.royalties with
    | ok s' =>
      dsimp only
      simp only [settle, bind_ok] at hs
      obtain ⟨h, e1, e2⟩ := hs
      obtain ⟨q0, q1, _, q2, q4, q5, q3⟩ := spendPay_ok e1 g3 b2 hg.mi.hi (hg.mi.iss _)
      have hd := unlockTransfer_delivered (by exact hg.lk.nr) (by exact hg.lk.si) e2
      have hfr : ∃ n f, s' = { removeListing s i l with hs := h, bids := upd s.bids i none, nft := n, sft := f } := by
        revert e2
        cases l.tokens with
        | nft id ns =>
          intro e2
          simp only [unlockTransfer, bind_ok, ensure_ok, pure_ok] at e2
          obtain ⟨_, _, t, _, rfl⟩ := e2
          exact ⟨_, _, rfl⟩
        | sft id xs =>
          intro e2
          simp only [unlockTransfer, bind_ok, pure_ok] at e2
          obtain ⟨_, _, t, _, rfl⟩ := e2
          exact ⟨_, _, rfl⟩
      obtain ⟨n, f, rfl⟩ := hfr
      refine ⟨upd_same _ _ _, rfl, (fun hx => by cases hx), fun b' hb' => ?_⟩
      cases hb'
      refine ⟨rfl, fun a y => ?_, Or.inl ⟨⟨q0, fun y => ?_, q4, q2⟩, ?_⟩⟩
      · have := q3 a y c.pid
        simpa [removeListing] using this
      · rw [Nat.add_assoc]; exact q5 y
      · have := hd.1
        cases ht : l.tokens with
        | nft id ns => rw [ht] at this; exact this
        | sft id xs => rw [ht] at this; exact this
    | error e =>
      dsimp only
      obtain ⟨h, e1, q1, q2, q4, q5, q3⟩ := releaseSoft_ok
        (s := { removeListing s i l with bids := upd (removeListing s i l).bids i none }) (w := b.1) (a := l.asset)
        (amt := b.2) hg.mi.hi hcov b1
      rw [e1]
      refine ⟨upd_same _ _ _, rfl, (fun hx => by cases hx), fun b' hb' => ?_⟩
      cases hb'
      refine ⟨rfl, fun a y => ?_, Or.inr ⟨q5, q4, rfl, rfl⟩⟩
      have := q3 a y c.pid
      simpa [removeListing] using this

end Verif.Market
