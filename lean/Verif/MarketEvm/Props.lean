import Verif.MarketEvm.Model
import Verif.Market.Props
import Verif.Market.Rights

/-!
# Properties of the marketplace contract (C174 to C176)
-/

namespace Verif.MarketEvm

open Market (Tokens Listing Offer Op)

/-! ## What the contract's functions mean -/

/-- The token contract of number `id` is at address `a`: the first four bytes are the kind's prefix, the next four the
number. -/
def At (pre a id : Nat) : Prop := a / 2 ^ 96 = pre * 2 ^ 32 + id ∧ id < 2 ^ 32

/-- Zero stands for "none". -/
def Opt (n : Nat) (o : Option Nat) : Prop := (n = 0 ∧ o = none) ∨ (n ≠ 0 ∧ o = some n)

/-- The call of the marketplace pallet, by the caller, that a call of the contract stands for. -/
inductive Means (c : Market.Cfg) (caller : Acct) : Input → Op → Prop
  | register {x p : Nat} {y : Option Nat} : Opt x y → p < U32 →
      Means c caller (.registerMarketplace x p) (.registerMarket caller y p)
  | sellNft {coll id b asset price d m : Nat} {ns : List Nat} {a : AssetId} {b' d' m' : Option Nat} :
      At 0xAAAAAAAA coll id → At 0xCCCCCCCC asset a.val → (∀ n ∈ ns, n < U32) → ns.length ≤ c.maxTokens → d < U32 →
      m < U32 → Opt b b' → Opt d d' → Opt m m' →
      Means c caller (.sellNft coll ns b asset price d m) (.list false caller (.nft id ns) b' a price d' m')
  | sellSft {coll id b asset price d m : Nat} {ns qs : List Nat} {a : AssetId} {b' d' m' : Option Nat} :
      At 0xBBBBBBBB coll id → At 0xCCCCCCCC asset a.val → (∀ n ∈ ns, n < U32) → (∀ q ∈ qs, q < U128) →
      ns.length = qs.length → ns.length ≤ c.maxTokens → d < U32 → m < U32 → Opt b b' → Opt d d' → Opt m m' →
      Means c caller (.sellSft coll ns qs b asset price d m) (.list false caller (.sft id (ns.zip qs)) b' a price d' m')
  | auctionNft {coll id asset price d m : Nat} {ns : List Nat} {a : AssetId} {d' m' : Option Nat} :
      At 0xAAAAAAAA coll id → At 0xCCCCCCCC asset a.val → (∀ n ∈ ns, n < U32) → ns.length ≤ c.maxTokens → d < U32 →
      m < U32 → Opt d d' → Opt m m' →
      Means c caller (.auctionNft coll ns asset price d m) (.list true caller (.nft id ns) none a price d' m')
  | auctionSft {coll id asset price d m : Nat} {ns qs : List Nat} {a : AssetId} {d' m' : Option Nat} :
      At 0xBBBBBBBB coll id → At 0xCCCCCCCC asset a.val → (∀ n ∈ ns, n < U32) → (∀ q ∈ qs, q < U128) →
      ns.length = qs.length → ns.length ≤ c.maxTokens → d < U32 → m < U32 → Opt d d' → Opt m m' →
      Means c caller (.auctionSft coll ns qs asset price d m) (.list true caller (.sft id (ns.zip qs)) none a price d' m')
  | updatePrice {i p : Nat} : i < U128 → Means c caller (.updateFixedPrice i p) (.updatePrice caller i p)
  | buy {i : Nat} : i < U128 → Means c caller (.buy i) (.buy caller i)
  | bid {i x : Nat} : i < U128 → Means c caller (.bid i x) (.bid caller i x)
  | cancelSale {i : Nat} : i < U128 → Means c caller (.cancelSale i) (.cancelSale caller i)
  | offer {coll id n x asset m : Nat} {a : AssetId} {m' : Option Nat} : At 0xAAAAAAAA coll id →
      At 0xCCCCCCCC asset a.val → n < U32 → m < U32 → Opt m m' →
      Means c caller (.makeSimpleOffer coll n x asset m) (.makeOffer caller id n x a m')
  | cancelOffer {i : Nat} : i < U64 → Means c caller (.cancelOffer i) (.cancelOffer caller i)
  | acceptOffer {i : Nat} : i < U64 → Means c caller (.acceptOffer i) (.acceptOffer caller i)

/-- What is returned: the number of the new listing for sale, offer or marketplace. -/
def answer (s : Market.St) : Op → Answer
  | .list false .. => .id s.nextListing
  | .makeOffer .. => .id s.nextOffer
  | .registerMarket .. => .id s.nextMarket
  | _ => .nothing

theorem decode_iff {pre a id : Nat} : Precompile.decode pre a = some id ↔ At pre a id := by
  unfold Precompile.decode At
  have h : a / 2 ^ 128 = a / 2 ^ 96 / 2 ^ 32 := by omega
  rw [h]
  generalize a / 2 ^ 96 = x
  constructor
  · intro h
    split at h
    · have := Option.some.inj h
      omega
    · cases h
  · rintro ⟨h1, h2⟩
    rw [if_pos (by omega)]
    exact congrArg some (by omega)

theorem collAt_ok {pre a id : Nat} : collAt pre a = .ok id ↔ At pre a id := by
  unfold collAt
  rw [okOr_ok, decode_iff]

theorem assetAt_ok {a : Nat} {x : AssetId} : assetAt a = .ok x ↔ At 0xCCCCCCCC a x.val := by
  unfold assetAt DexEvm.assetAt
  rw [okOr_ok, ← decode_iff]
  show Option.map _ (Precompile.decode Precompile.prefix20 a) = _ ↔ Precompile.decode Precompile.prefix20 a = _
  cases h : Precompile.decode Precompile.prefix20 a with
  | none => simp
  | some n =>
    have hn := (decode_iff.mp h).2
    rw [Option.map_some]
    constructor
    · intro e
      have e := Option.some.inj e
      rw [← e]
      exact congrArg some (Nat.mod_eq_of_lt hn).symm
    · intro e
      have e := Option.some.inj e
      exact congrArg some (Fin.ext (by rw [e]; exact Nat.mod_eq_of_lt x.isLt))

theorem nonZero_opt {n : Nat} {o : Option Nat} : nonZero n = o ↔ Opt n o := by
  unfold nonZero Opt
  by_cases h : n = 0
  · rw [if_pos h]
    constructor
    · intro e; exact Or.inl ⟨h, e.symm⟩
    · rintro (⟨_, e⟩ | ⟨e, _⟩)
      · exact e.symm
      · exact absurd h e
  · rw [if_neg h]
    constructor
    · intro e; exact Or.inr ⟨h, e.symm⟩
    · rintro (⟨e, _⟩ | ⟨_, e⟩)
      · exact absurd e h
      · exact e.symm

theorem toBlock_ok {x n : Nat} : DexEvm.toBlock x = .ok n ↔ x < U32 ∧ x = n := by
  unfold DexEvm.toBlock
  split
  · rename_i h
    exact ⟨fun e => ⟨h, Except.ok.inj e⟩, fun e => by rw [e.2]⟩
  · rename_i h
    exact ⟨fun e => (nomatch e), fun e => absurd e.1 h⟩

theorem duration_ok {d : Nat} {o : Option Nat} : duration d = .ok o ↔ d < U32 ∧ Opt d o := by
  simp only [duration, bind_ok, pure_ok, toBlock_ok]
  constructor
  · rintro ⟨n, ⟨h1, rfl⟩, h⟩; exact ⟨h1, nonZero_opt.mp h⟩
  · rintro ⟨h1, h⟩; exact ⟨d, ⟨h1, rfl⟩, nonZero_opt.mpr h⟩

theorem serialList_ok {c : Market.Cfg} {ns ms : List Nat} : serialList c ns = .ok ms ↔
    (∀ n ∈ ns, n < U32) ∧ ns.length ≤ c.maxTokens ∧ ns = ms := by
  simp only [serialList, bind_ok, ensure_ok, pure_ok]
  constructor
  · rintro ⟨_, h1, _, h2, h3⟩; exact ⟨h1, h2, h3⟩
  · rintro ⟨h1, h2, h3⟩; exact ⟨(), h1, (), h2, h3⟩

theorem pieces_ok {c : Market.Cfg} {ns qs : List Nat} {xs : List (Nat × Nat)} : pieces c ns qs = .ok xs ↔
    ns.length = qs.length ∧ (∀ n ∈ ns, n < U32) ∧ (∀ q ∈ qs, q < U128) ∧ ns.length ≤ c.maxTokens ∧ ns.zip qs = xs := by
  simp only [pieces, bind_ok, ensure_ok, pure_ok]
  constructor
  · rintro ⟨_, h1, _, ⟨h2, h3⟩, _, h4, h5⟩; exact ⟨h1, h2, h3, h4, h5⟩
  · rintro ⟨h1, h2, h3, h4, h5⟩; exact ⟨(), h1, (), ⟨h2, h3⟩, (), h4, h5⟩

theorem fits_ok {n b : Nat} {u : Unit} : fits n b = .ok u ↔ n < b := by
  unfold fits
  rw [ensure_ok]

theorem sell_ok {c : Market.Cfg} {s s' : Market.St} {caller : Acct} {t : Tokens} {b asset p d m : Nat} {ans : Answer} :
    sell c s caller t b asset p d m = .ok (s', ans) ↔ ∃ a b' d' m', m < U32 ∧ At 0xCCCCCCCC asset a.val ∧ d < U32 ∧
      Opt b b' ∧ Opt d d' ∧ Opt m m' ∧ Market.list c s false caller t b' a p d' m' = .ok s' ∧ ans = .id s.nextListing := by
  simp only [sell, bind_ok, fits_ok, assetAt_ok, duration_ok, pure_ok]
  constructor
  · rintro ⟨_, h1, a, h2, d', ⟨h3, h4⟩, _, h5, s1, h6, h7⟩
    obtain ⟨rfl, rfl⟩ := Prod.mk.inj h7
    exact ⟨a, _, d', _, h1, h2, h3, nonZero_opt.mp rfl, h4, nonZero_opt.mp rfl, h6, rfl⟩
  · rintro ⟨a, b', d', m', h1, h2, h3, h4, h5, h6, h7, rfl⟩
    rw [← nonZero_opt] at h4 h6
    subst h4 h6
    have hp : p < U128 := by
      simp only [Market.list, bind_ok, ensure_ok] at h7
      exact h7.choose_spec.1
    exact ⟨(), h1, a, h2, d', ⟨h3, h5⟩, (), hp, s', h7, rfl⟩

theorem auction_ok {c : Market.Cfg} {s s' : Market.St} {caller : Acct} {t : Tokens} {asset p d m : Nat} {ans : Answer} :
    auction c s caller t asset p d m = .ok (s', ans) ↔ ∃ a d', m < U32 ∧ At 0xCCCCCCCC asset a.val ∧ d < U32 ∧
      Opt d d' ∧ Market.list c s true caller t none a p d' (some m) = .ok s' ∧ ans = .nothing := by
  simp only [auction, bind_ok, fits_ok, assetAt_ok, duration_ok, pure_ok]
  constructor
  · rintro ⟨_, h1, d', ⟨h3, h4⟩, _, h5, a, h2, s1, h6, h7⟩
    obtain ⟨rfl, rfl⟩ := Prod.mk.inj h7
    exact ⟨a, d', h1, h2, h3, h4, h6, rfl⟩
  · rintro ⟨a, d', h1, h2, h3, h5, h7, rfl⟩
    have hp : p < U128 := by
      simp only [Market.list, bind_ok, ensure_ok] at h7
      exact h7.choose_spec.1
    exact ⟨(), h1, d', ⟨h3, h5⟩, (), hp, a, h2, s', h7, rfl⟩

/-- The function changes something. -/
def Changes (i : Input) : Prop := isView i = false

theorem call_ok {c : Market.Cfg} {s s' : Market.St} {st : Bool} {caller : Acct} {v : Nat} {i : Input} {ans : Answer}
    (h : Changes i) : call c s st caller v i = .ok (s', ans) ↔ st = false ∧ v = 0 ∧ run c s caller i = .ok (s', ans) := by
  have h : isView i = false := h
  have e : (if isView i = true then DexEvm.Modifier.view else .nonPayable) = .nonPayable := by rw [h]; rfl
  simp only [call, DexEvm.checkModifier, bind_ok, ensure_ok, e]
  constructor
  · rintro ⟨_, ⟨_, h1, h2⟩, h3⟩
    refine ⟨?_, ?_, h3⟩
    · cases st
      · rfl
      · exact absurd ⟨rfl, by decide⟩ h1
    · rcases h2 with h2 | h2
      · cases h2
      · exact h2
  · rintro ⟨rfl, rfl, h3⟩
    exact ⟨(), ⟨(), fun h => (nomatch h.1), Or.inr rfl⟩, h3⟩

/-! ## C174: the contract acts for its caller, as asked -/

/-- The claim: a call of the contract succeeds exactly if the call of the pallet it stands for would, with the same
effect, and returns the new number. -/
def ContractIsPallet : Prop :=
  ∀ (c : Market.Cfg) (s s' : Market.St) (caller : Acct) (i : Input) (ans : Answer), Changes i →
    (call c s false caller 0 i = .ok (s', ans) ↔
      ∃ op, Means c caller i op ∧ Market.step c s op = .ok s' ∧ ans = answer s op)

/-- The calls for which the claim holds: no share above one, and a marketplace wherever an auction or offer is made. -/
def Regular : Input → Prop
  | .registerMarketplace _ p => p ≤ 1000000
  | .auctionNft _ _ _ _ _ m => m ≠ 0
  | .auctionSft _ _ _ _ _ _ m => m ≠ 0
  | .makeSimpleOffer _ _ _ _ m => m ≠ 0 ∧ m < U32
  | _ => True

theorem price_lt {s s' : Market.St} {who : Acct} {i p : Nat} (h : Market.updatePrice s who i p = .ok s') :
    p < U128 := by
  simp only [Market.updatePrice, bind_ok, ensure_ok] at h
  exact h.choose_spec.1

theorem bid_lt {c : Market.Cfg} {s s' : Market.St} {who : Acct} {i p : Nat} (h : Market.bid c s who i p = .ok s') :
    p < U128 := by
  simp only [Market.bid, bind_ok, ensure_ok] at h
  exact h.choose_spec.1

theorem offer_lt {c : Market.Cfg} {s s' : Market.St} {who : Acct} {id n x : Nat} {a : AssetId} {m : Option Nat}
    (h : Market.makeOffer c s who id n x a m = .ok s') : x < U128 := by
  simp only [Market.makeOffer, bind_ok, ensure_ok] at h
  exact h.choose_spec.1

/-- C174, partial: the claim for all calls but those of `C174_refuted`, `C174_cut_refuted` and
`C174_share_refuted`. -/
theorem C174_partial {c : Market.Cfg} {s s' : Market.St} {st : Bool} {caller : Acct} {v : Nat} {i : Input} {ans : Answer}
    (hc : Changes i) (hr : Regular i) : call c s st caller v i = .ok (s', ans) ↔ st = false ∧ v = 0 ∧
      ∃ op, Means c caller i op ∧ Market.step c s op = .ok s' ∧ ans = answer s op := by
  rw [call_ok hc]
  refine and_congr_right (fun _ => and_congr_right (fun _ => ?_))
  cases i with
  | registerMarketplace x p =>
    have hr : p ≤ 1000000 := hr
    simp only [run, bind_ok, fits_ok, pure_ok]
    rw [Nat.min_eq_left hr]
    constructor
    · rintro ⟨_, h1, s1, h2, h3⟩
      obtain ⟨rfl, rfl⟩ := Prod.mk.inj h3
      exact ⟨_, .register (nonZero_opt.mp rfl) h1, h2, rfl⟩
    · rintro ⟨op, hm, h2, rfl⟩
      cases hm with
      | register h3 h4 =>
        rw [← nonZero_opt] at h3
        subst h3
        exact ⟨(), h4, s', h2, rfl⟩
  | sellNft coll ns b asset p d m =>
    simp only [run, bind_ok, collAt_ok, serialList_ok, sell_ok]
    constructor
    · rintro ⟨id, h1, ms, ⟨h2, h3, rfl⟩, a, b', d', m', k1, k2, k3, k4, k5, k6, k7, rfl⟩
      exact ⟨_, .sellNft h1 k2 h2 h3 k3 k1 k4 k5 k6, k7, rfl⟩
    · rintro ⟨op, hm, h2, rfl⟩
      cases hm with
      | sellNft k1 k2 k3 k4 k5 k6 k7 k8 k9 =>
        exact ⟨_, k1, _, ⟨k3, k4, rfl⟩, _, _, _, _, k6, k2, k5, k7, k8, k9, h2, rfl⟩
  | sellSft coll ns qs b asset p d m =>
    simp only [run, bind_ok, collAt_ok, pieces_ok, sell_ok]
    constructor
    · rintro ⟨id, h1, ms, ⟨h2, h3, h4, h5, rfl⟩, a, b', d', m', k1, k2, k3, k4, k5, k6, k7, rfl⟩
      exact ⟨_, .sellSft h1 k2 h3 h4 h2 h5 k3 k1 k4 k5 k6, k7, rfl⟩
    · rintro ⟨op, hm, h2, rfl⟩
      cases hm with
      | sellSft k1 k2 k3 k3' k3'' k4 k5 k6 k7 k8 k9 =>
        exact ⟨_, k1, _, ⟨k3'', k3, k3', k4, rfl⟩, _, _, _, _, k6, k2, k5, k7, k8, k9, h2, rfl⟩
  | updateFixedPrice i p =>
    simp only [run, bind_ok, fits_ok, pure_ok]
    constructor
    · rintro ⟨_, h1, _, h2, s1, h3, h4⟩
      obtain ⟨rfl, rfl⟩ := Prod.mk.inj h4
      exact ⟨_, .updatePrice h1, h3, rfl⟩
    · rintro ⟨op, hm, h2, rfl⟩
      cases hm with
      | updatePrice h3 => exact ⟨(), h3, (), price_lt h2, s', h2, rfl⟩
  | buy i =>
    simp only [run, bind_ok, fits_ok, pure_ok]
    constructor
    · rintro ⟨_, h1, s1, h3, h4⟩
      obtain ⟨rfl, rfl⟩ := Prod.mk.inj h4
      exact ⟨_, .buy h1, h3, rfl⟩
    · rintro ⟨op, hm, h2, rfl⟩
      cases hm with
      | buy h3 => exact ⟨(), h3, s', h2, rfl⟩
  | auctionNft coll ns asset p d m =>
    have hr : m ≠ 0 := hr
    simp only [run, bind_ok, collAt_ok, serialList_ok, auction_ok]
    constructor
    · rintro ⟨id, h1, ms, ⟨h2, h3, rfl⟩, a, d', k1, k2, k3, k5, k7, rfl⟩
      exact ⟨_, .auctionNft h1 k2 h2 h3 k3 k1 k5 (Or.inr ⟨hr, rfl⟩), k7, rfl⟩
    · rintro ⟨op, hm, h2, rfl⟩
      cases hm with
      | auctionNft k1 k2 k3 k4 k5 k6 k8 k9 =>
        rcases k9 with ⟨k9, _⟩ | ⟨_, rfl⟩
        · exact absurd k9 hr
        · exact ⟨_, k1, _, ⟨k3, k4, rfl⟩, _, _, k6, k2, k5, k8, h2, rfl⟩
  | auctionSft coll ns qs asset p d m =>
    have hr : m ≠ 0 := hr
    simp only [run, bind_ok, collAt_ok, pieces_ok, auction_ok]
    constructor
    · rintro ⟨id, h1, ms, ⟨h2, h3, h4, h5, rfl⟩, a, d', k1, k2, k3, k5, k7, rfl⟩
      exact ⟨_, .auctionSft h1 k2 h3 h4 h2 h5 k3 k1 k5 (Or.inr ⟨hr, rfl⟩), k7, rfl⟩
    · rintro ⟨op, hm, h2, rfl⟩
      cases hm with
      | auctionSft k1 k2 k3 k3' k3'' k4 k5 k6 k8 k9 =>
        rcases k9 with ⟨k9, _⟩ | ⟨_, rfl⟩
        · exact absurd k9 hr
        · exact ⟨_, k1, _, ⟨k3'', k3, k3', k4, rfl⟩, _, _, k6, k2, k5, k8, h2, rfl⟩
  | bid i x =>
    simp only [run, bind_ok, fits_ok, pure_ok]
    constructor
    · rintro ⟨_, h1, _, h2, s1, h3, h4⟩
      obtain ⟨rfl, rfl⟩ := Prod.mk.inj h4
      exact ⟨_, .bid h1, h3, rfl⟩
    · rintro ⟨op, hm, h2, rfl⟩
      cases hm with
      | bid h3 => exact ⟨(), h3, (), bid_lt h2, s', h2, rfl⟩
  | cancelSale i =>
    simp only [run, bind_ok, fits_ok, pure_ok]
    constructor
    · rintro ⟨_, h1, s1, h3, h4⟩
      obtain ⟨rfl, rfl⟩ := Prod.mk.inj h4
      exact ⟨_, .cancelSale h1, h3, rfl⟩
    · rintro ⟨op, hm, h2, rfl⟩
      cases hm with
      | cancelSale h3 => exact ⟨(), h3, s', h2, rfl⟩
  | makeSimpleOffer coll n x asset m =>
    have hr : m ≠ 0 ∧ m < U32 := hr
    simp only [run, bind_ok, fits_ok, pure_ok, collAt_ok, assetAt_ok]
    rw [Nat.min_eq_left (by omega)]
    constructor
    · rintro ⟨_, h1, id, h2, _, h3, a, h4, s1, h5, h6⟩
      obtain ⟨rfl, rfl⟩ := Prod.mk.inj h6
      exact ⟨_, .offer h2 h4 h3 hr.2 (Or.inr ⟨hr.1, rfl⟩), h5, rfl⟩
    · rintro ⟨op, hm, h2, rfl⟩
      cases hm with
      | offer k1 k2 k3 k4 k5 =>
        rcases k5 with ⟨k5, _⟩ | ⟨_, rfl⟩
        · exact absurd k5 hr.1
        · exact ⟨(), offer_lt h2, _, k1, (), k3, _, k2, s', h2, rfl⟩
  | cancelOffer i =>
    simp only [run, bind_ok, fits_ok, pure_ok]
    constructor
    · rintro ⟨_, h1, s1, h3, h4⟩
      obtain ⟨rfl, rfl⟩ := Prod.mk.inj h4
      exact ⟨_, .cancelOffer h1, h3, rfl⟩
    · rintro ⟨op, hm, h2, rfl⟩
      cases hm with
      | cancelOffer h3 => exact ⟨(), h3, s', h2, rfl⟩
  | acceptOffer i =>
    simp only [run, bind_ok, fits_ok, pure_ok]
    constructor
    · rintro ⟨_, h1, s1, h3, h4⟩
      obtain ⟨rfl, rfl⟩ := Prod.mk.inj h4
      exact ⟨_, .acceptOffer h1, h3, rfl⟩
    · rintro ⟨op, hm, h2, rfl⟩
      cases hm with
      | acceptOffer h3 => exact ⟨(), h3, s', h2, rfl⟩
  | getMarketplaceAccount m => exact absurd hc (by simp [Changes, isView])
  | getListingFromId m => exact absurd hc (by simp [Changes, isView])
  | getOfferFromId m => exact absurd hc (by simp [Changes, isView])

end Verif.MarketEvm
