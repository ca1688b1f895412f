import Verif.Market.Pay
import Verif.Market.Inv

/-! # The money of the marketplace -/

namespace Verif.Market

/-- What an offer holds of an account. -/
def offerAmt (o : Option Offer) (a : AssetId) (w : Acct) : Nat :=
  match o with
  | some o => if o.asset = a ∧ o.buyer = w then o.amount else 0
  | none => 0

/-- What a bid, made in asset `x`, holds of an account. -/
def bidAmt (b : Option (Acct × Nat)) (x a : AssetId) (w : Acct) : Nat :=
  match b with
  | some b => if x = a ∧ b.1 = w then b.2 else 0
  | none => 0

/-- The holds of the marketplace are the open offers and the stored bids. -/
structure Mi (c : Cfg) (hs : Holds.St) (ls : Book) (bids : Nat → Option (Acct × Nat)) (offers : Nat → Option Offer)
    (tos : Nat → Nat → List Nat) (as : Nat → AssetId) (nextOffer nextListing : Nat) : Prop where
  hi : Holds.HI c.holds hs
  iss : ∀ a, hs.ledger.iss a + 8 < U128
  exact : ∀ a w, ∃ m k, TotalIs (fun i => offerAmt (offers i) a w) m ∧ TotalIs (fun i => bidAmt (bids i) (as i) a w) k ∧
    Holds.holdOf (hs.holds a w) c.pid = m + k
  offer : ∀ i o, offers i = some o → o.buyer ≠ c.holds.pot ∧ 0 < o.amount ∧ o.amount < U128 ∧ i < nextOffer
  mem : ∀ i id n, i ∈ tos id n ↔ ∃ o, offers i = some o ∧ o.coll = id ∧ o.serial = n
  sorted : ∀ id n, (tos id n).Pairwise (· < ·)
  bid : ∀ i b, bids i = some b → b.1 ≠ c.holds.pot ∧ b.2 < U128 ∧ i < nextListing
  lst : ∀ i l, ls i = some l → as i = l.asset ∧ l.price < U128 ∧ GoodRoy l.royalties ∧ l.seller ≠ c.holds.pot ∧
    i < nextListing ∧ (∀ b, bids i = some b → l.auction = true ∧ l.price ≤ b.2)

variable {c : Cfg} {hs hs' : Holds.St} {ls : Book} {bids : Nat → Option (Acct × Nat)} {offers : Nat → Option Offer}
  {tos : Nat → Nat → List Nat} {as : Nat → AssetId} {no nl : Nat}

/-- Money moves, the holds of the marketplace stay. -/
theorem Mi.money (h : Mi c hs ls bids offers tos as no nl) (h1 : Holds.HI c.holds hs')
    (h2 : ∀ a, hs'.ledger.iss a + 8 < U128)
    (h3 : ∀ a w, Holds.holdOf (hs'.holds a w) c.pid = Holds.holdOf (hs.holds a w) c.pid) :
    Mi c hs' ls bids offers tos as no nl :=
  { h with
    hi := h1
    iss := h2
    exact := fun a w => by
      obtain ⟨m, k, e1, e2, e3⟩ := h.exact a w
      exact ⟨m, k, e1, e2, (h3 a w).trans e3⟩ }

/-- A bid is stored, replaced or removed. -/
theorem Mi.setBid (h : Mi c hs ls bids offers tos as no nl) (h1 : Holds.HI c.holds hs')
    (h2 : ∀ a, hs'.ledger.iss a + 8 < U128) {i : Nat} {b : Option (Acct × Nat)}
    (h3 : ∀ a w, Holds.holdOf (hs'.holds a w) c.pid + bidAmt (bids i) (as i) a w =
      Holds.holdOf (hs.holds a w) c.pid + bidAmt b (as i) a w)
    (h4 : ∀ x, b = some x → x.1 ≠ c.holds.pot ∧ x.2 < U128 ∧ i < nl ∧
      ∀ l, ls i = some l → l.auction = true ∧ l.price ≤ x.2) :
    Mi c hs' ls (upd bids i b) offers tos as no nl :=
  { h with
    hi := h1
    iss := h2
    exact := fun a w => by
      obtain ⟨m, k, e1, e2, e3⟩ := h.exact a w
      have hu := e2.upd i (bidAmt b (as i) a w)
      have hle := e2.le i
      refine ⟨m, _, e1, hu.congr (fun j => ?_), ?_⟩
      · rw [upd_apply, upd_apply]
        split
        · rename_i hj; subst hj; rfl
        · rfl
      · have := h3 a w
        omega
    bid := fun j x hx => by
      rw [upd_apply] at hx
      split at hx
      · rename_i hj; subst hj
        obtain ⟨p1, p2, p3, _⟩ := h4 x hx
        exact ⟨p1, p2, p3⟩
      · exact h.bid j x hx
    lst := fun j l hl => by
      obtain ⟨p1, p2, p3, p4, p5, p6⟩ := h.lst j l hl
      refine ⟨p1, p2, p3, p4, p5, fun x hx => ?_⟩
      rw [upd_apply] at hx
      split at hx
      · rename_i hj; subst hj
        exact (h4 x hx).2.2.2 l hl
      · exact p6 x hx }

/-- An offer is added. -/
theorem Mi.addOffer (h : Mi c hs ls bids offers tos as no nl) (h1 : Holds.HI c.holds hs')
    (h2 : ∀ a, hs'.ledger.iss a + 8 < U128) {o : Offer}
    (h3 : ∀ a w, Holds.holdOf (hs'.holds a w) c.pid = Holds.holdOf (hs.holds a w) c.pid + offerAmt (some o) a w)
    (h4 : o.buyer ≠ c.holds.pot ∧ 0 < o.amount ∧ o.amount < U128) :
    Mi c hs' ls bids (upd offers no (some o))
      (upd tos o.coll (upd (tos o.coll) o.serial (tos o.coll o.serial ++ [no]))) as (no + 1) nl := by
  have hfresh : offers no = none := by
    cases hx : offers no with
    | none => rfl
    | some x => exact absurd (h.offer _ _ hx).2.2.2 (lt_irrefl _)
  have hlow : ∀ id n i, i ∈ tos id n → i < no := by
    intro id n i hi
    obtain ⟨o, ho, _⟩ := (h.mem i id n).mp hi
    exact (h.offer i o ho).2.2.2
  have htos : ∀ id n, upd tos o.coll (upd (tos o.coll) o.serial (tos o.coll o.serial ++ [no])) id n =
      if id = o.coll ∧ n = o.serial then tos id n ++ [no] else tos id n := by
    intro id n
    by_cases h1 : id = o.coll
    · subst h1
      rw [upd_same]
      by_cases h2 : n = o.serial
      · subst h2; rw [upd_same, if_pos ⟨rfl, rfl⟩]
      · rw [upd_ne _ _ h2, if_neg (fun hx => h2 hx.2)]
    · rw [upd_ne _ _ h1, if_neg (fun hx => h1 hx.1)]
  refine ⟨h1, h2, fun a w => ?_, ?_, ?_, ?_, h.bid, h.lst⟩
  · obtain ⟨m, k, e1, e2, e3⟩ := h.exact a w
    have hu := e1.upd no (offerAmt (some o) a w)
    rw [hfresh] at hu
    have h0 : offerAmt none a w = 0 := rfl
    rw [h0] at hu
    refine ⟨_, k, hu.congr (fun j => ?_), e2, ?_⟩
    · rw [upd_apply, upd_apply]
      split <;> rfl
    · rw [h3]; omega
  · intro j x hx
    rw [upd_apply] at hx
    split at hx
    · cases hx; exact ⟨h4.1, h4.2.1, h4.2.2, by omega⟩
    · obtain ⟨p1, p2, p3, p4⟩ := h.offer j x hx
      exact ⟨p1, p2, p3, by omega⟩
  · intro j id n
    rw [htos]
    have key : (j ∈ if id = o.coll ∧ n = o.serial then tos id n ++ [no] else tos id n) ↔
        j ∈ tos id n ∨ (j = no ∧ id = o.coll ∧ n = o.serial) := by
      split
      · rename_i hc; rw [List.mem_append, List.mem_singleton]; simp [hc]
      · rename_i hc; constructor
        · exact Or.inl
        · rintro (hx | ⟨_, hx⟩)
          · exact hx
          · exact absurd hx hc
    rw [key, h.mem]
    constructor
    · rintro (⟨x, hx, e1, e2⟩ | ⟨rfl, e1, e2⟩)
      · have hne : j ≠ no := by rintro rfl; rw [hfresh] at hx; cases hx
        exact ⟨x, by rw [upd_ne _ _ hne]; exact hx, e1, e2⟩
      · exact ⟨o, upd_same _ _ _, e1.symm, e2.symm⟩
    · rintro ⟨x, hx, e1, e2⟩
      rw [upd_apply] at hx
      split at hx
      · cases hx; exact Or.inr ⟨by assumption, e1.symm, e2.symm⟩
      · exact Or.inl ⟨x, hx, e1, e2⟩
  · intro id n
    rw [htos]
    split
    · rw [List.pairwise_append]
      refine ⟨h.sorted id n, List.pairwise_singleton _ _, fun a ha b hb => ?_⟩
      rw [List.mem_singleton] at hb
      subst hb
      exact hlow _ _ _ ha
    · exact h.sorted id n

/-- An offer is removed. -/
theorem Mi.dropOffer (h : Mi c hs ls bids offers tos as no nl) (h1 : Holds.HI c.holds hs')
    (h2 : ∀ a, hs'.ledger.iss a + 8 < U128) {i : Nat} {o : Offer} (ho : offers i = some o)
    (h3 : ∀ a w, Holds.holdOf (hs'.holds a w) c.pid + offerAmt (some o) a w = Holds.holdOf (hs.holds a w) c.pid) :
    Mi c hs' ls bids (upd offers i none)
      (upd tos o.coll (upd (tos o.coll) o.serial ((tos o.coll o.serial).erase i))) as no nl := by
  have htos : ∀ id n, upd tos o.coll (upd (tos o.coll) o.serial ((tos o.coll o.serial).erase i)) id n =
      if id = o.coll ∧ n = o.serial then (tos id n).erase i else tos id n := by
    intro id n
    by_cases h1 : id = o.coll
    · subst h1
      rw [upd_same]
      by_cases h2 : n = o.serial
      · subst h2; rw [upd_same, if_pos ⟨rfl, rfl⟩]
      · rw [upd_ne _ _ h2, if_neg (fun hx => h2 hx.2)]
    · rw [upd_ne _ _ h1, if_neg (fun hx => h1 hx.1)]
  refine ⟨h1, h2, fun a w => ?_, ?_, ?_, ?_, h.bid, h.lst⟩
  · obtain ⟨m, k, e1, e2, e3⟩ := h.exact a w
    have hu := e1.upd i 0
    have hle := e1.le i
    rw [ho] at hu hle
    refine ⟨_, k, hu.congr (fun j => ?_), e2, ?_⟩
    · rw [upd_apply, upd_apply]
      split <;> rfl
    · have := h3 a w; omega
  · intro j x hx
    rw [upd_apply] at hx
    split at hx
    · cases hx
    · exact h.offer j x hx
  · intro j id n
    rw [htos]
    have hnd : (tos id n).Nodup := (h.sorted id n).imp (fun hlt => Nat.ne_of_lt hlt)
    have key : (j ∈ if id = o.coll ∧ n = o.serial then (tos id n).erase i else tos id n) ↔ j ∈ tos id n ∧ j ≠ i := by
      split
      · rw [hnd.mem_erase_iff]; tauto
      · rename_i hc
        constructor
        · intro hj
          refine ⟨hj, ?_⟩
          rintro rfl
          obtain ⟨x, hx, e1, e2⟩ := (h.mem j id n).mp hj
          rw [ho] at hx; cases hx
          exact hc ⟨e1.symm, e2.symm⟩
        · exact fun hj => hj.1
    rw [key, h.mem]
    constructor
    · rintro ⟨⟨x, hx, e⟩, hne⟩
      exact ⟨x, by rw [upd_ne _ _ hne]; exact hx, e⟩
    · rintro ⟨x, hx, e⟩
      rw [upd_apply] at hx
      split at hx
      · cases hx
      · exact ⟨⟨x, hx, e⟩, by assumption⟩
  · intro id n
    rw [htos]
    split
    · exact (h.sorted id n).sublist List.erase_sublist
    · exact h.sorted id n

/-- A listing is removed. -/
theorem Mi.dropListing (h : Mi c hs ls bids offers tos as no nl) (i : Nat) :
    Mi c hs (upd ls i none) bids offers tos as no nl :=
  { h with
    lst := fun j l hl => by
      rw [upd_apply] at hl
      split at hl
      · cases hl
      · exact h.lst j l hl }

/-- A listing is changed in ways that do not concern the money already held. -/
theorem Mi.relist (h : Mi c hs ls bids offers tos as no nl) {i : Nat} {l l' : Listing} (hl : ls i = some l)
    (h1 : l'.asset = l.asset) (h2 : l'.price < U128) (h3 : l'.royalties = l.royalties) (h4 : l'.seller = l.seller)
    (h5 : l'.auction = l.auction) (h6 : l.auction = true → l'.price = l.price) : Mi c hs (upd ls i (some l')) bids offers tos as no nl :=
  { h with
    lst := fun j x hx => by
      rw [upd_apply] at hx
      split at hx
      · rename_i hj; subst hj; cases hx
        obtain ⟨p1, p2, p3, p4, p5, p6⟩ := h.lst j l hl
        rw [h1, h3, h4, h5]
        refine ⟨p1, h2, p3, p4, p5, fun b hb => ⟨(p6 b hb).1, ?_⟩⟩
        rw [h6 (p6 b hb).1]
        exact (p6 b hb).2
      · exact h.lst j x hx }

/-- A listing is added. -/
theorem Mi.addListing (h : Mi c hs ls bids offers tos as no nl) {l : Listing} (h2 : l.price < U128)
    (h3 : GoodRoy l.royalties) (h4 : l.seller ≠ c.holds.pot) :
    Mi c hs (upd ls nl (some l)) bids offers tos (upd as nl l.asset) no (nl + 1) := by
  have hfresh : bids nl = none := by
    cases hx : bids nl with
    | none => rfl
    | some x => exact absurd (h.bid _ _ hx).2.2 (lt_irrefl _)
  refine ⟨h.hi, h.iss, fun a w => ?_, h.offer, h.mem, h.sorted, ?_, ?_⟩
  · obtain ⟨m, k, e1, e2, e3⟩ := h.exact a w
    refine ⟨m, k, e1, e2.congr (fun j => ?_), e3⟩
    rw [upd_apply]
    split
    · rename_i hj; subst hj; rw [hfresh]; rfl
    · rfl
  · intro j x hx
    obtain ⟨p1, p2, p3⟩ := h.bid j x hx
    exact ⟨p1, p2, by omega⟩
  · intro j x hx
    rw [upd_apply] at hx
    split at hx
    · rename_i hj; subst hj; cases hx
      rw [upd_same]
      exact ⟨rfl, h2, h3, h4, by omega, fun b hb => by rw [hfresh] at hb; cases hb⟩
    · rename_i hj
      obtain ⟨p1, p2, p3, p4, p5, p6⟩ := h.lst j x hx
      rw [upd_ne _ _ hj]
      exact ⟨p1, p2, p3, p4, by omega, p6⟩

/-- Other pallets move money. -/
theorem Mi.outside (h : Mi c hs ls bids offers tos as no nl) {op : Holds.Op} (hg : AssetsOutside c hs op)
    (he : Holds.step c.holds hs op = .ok hs') : Mi c hs' ls bids offers tos as no nl := by
  cases op with
  | place p w a x =>
    obtain ⟨h1, h2, h3⟩ := Holds.place_ok he h.hi hg.2
    refine h.money h1 (fun b => ?_) (fun b y => ?_)
    · obtain ⟨_, t3, _, _⟩ := Ledger.transfer_ok h2
      rw [t3]; exact h.iss b
    · rw [h3, if_neg (fun hx => hg.1 hx.2.2.symm)]; rfl
  | release p w a x =>
    obtain ⟨h1, _, h2, h3⟩ := Holds.release_ok he h.hi hg.2
    refine h.money h1 (fun b => ?_) (fun b y => ?_)
    · obtain ⟨_, t3, _, _⟩ := Ledger.transfer_ok h2
      rw [t3]; exact h.iss b
    · have := h3 b y c.pid
      rw [if_neg (fun hx => hg.1 hx.2.2.symm)] at this; omega
  | spend p w a xs =>
    obtain ⟨h1, _, h2, _, _, h3⟩ := Holds.spend_ok he h.hi hg.2.2
    refine h.money h1 (fun b => ?_) (fun b y => ?_)
    · rw [h2]; exact h.iss b
    · have := h3 b y c.pid
      rw [if_neg (fun hx => hg.1 hx.2.2.symm)] at this; omega
  | split a src xs =>
    have h1 := h.hi.step (op := .split a src xs) hg he
    simp only [Holds.step, Holds.splitTransfer, bind_ok, ensure_ok, pure_ok] at he
    obtain ⟨L, ⟨_, _, hL⟩, rfl⟩ := he
    refine h.money h1 (fun b => ?_) (fun b y => rfl)
    dsimp only
    rw [(Holds.payAll_ok hL).1]; exact h.iss b
  | transfer a src dst x =>
    have h1 := h.hi.step (op := .transfer a src dst x) hg he
    simp only [Holds.step, bind_ok, pure_ok] at he
    obtain ⟨L, hL, rfl⟩ := he
    refine h.money h1 (fun b => ?_) (fun b y => rfl)
    obtain ⟨_, t3, _, _⟩ := Ledger.transfer_ok hL
    dsimp only
    rw [t3]; exact h.iss b
  | mint a dst x =>
    have h1 := h.hi.step (op := .mint a dst x) trivial he
    simp only [Holds.step, bind_ok, pure_ok] at he
    obtain ⟨L, hL, rfl⟩ := he
    refine h.money h1 (fun b => ?_) (fun b y => rfl)
    obtain ⟨_, t3, t4, _⟩ := Ledger.mint_ok hL
    have hg' : hs.ledger.iss a + x + 8 < U128 := hg
    dsimp only
    by_cases hx : b = a
    · rw [hx, t3]; exact hg'
    · rw [t4 b hx]; exact h.iss b
  | burn a src x =>
    have h1 := h.hi.step (op := .burn a src x) hg he
    simp only [Holds.step, bind_ok, pure_ok] at he
    obtain ⟨L, hL, rfl⟩ := he
    refine h.money h1 (fun b => ?_) (fun b y => rfl)
    obtain ⟨_, t3, t4, _⟩ := Ledger.burn_ok hL
    dsimp only
    by_cases hx : b = a
    · rw [hx, t3]; have := h.iss a; omega
    · rw [t4 b hx]; exact h.iss b

end Verif.Market
