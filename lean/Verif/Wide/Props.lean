import Verif.Evm20.Props
import Verif.Evm721.Props
import Verif.Evm1155.Props
import Verif.MarketEvm.Props
import Verif.MarketEvm.Offers
import Verif.PegEvm.Props
import Verif.DexEvm.Props

/-!
# C230: numbers that are too large are refused, not cut

Contracts are called with numbers below `2^256`; the chain counts tokens, blocks and marketplaces with 32 bits, offers with 64, amounts and
listings with 128. The specification says for each function which of its arguments fit; the theorems say that a call that succeeds had only
such arguments.
-/

namespace Verif.Wide

/-- Token numbers, counts, blocks, marketplaces. -/
def U32' (n : Nat) : Prop := n < 2 ^ 32
/-- Offers. -/
def U64' (n : Nat) : Prop := n < 2 ^ 64
/-- Amounts, listings. -/
def U128' (n : Nat) : Prop := n < 2 ^ 128

/-- The arguments of the functions of an NFT collection. -/
def Fits721 : Evm721.Call → Prop
  | .ownerOf n => U32' n
  | .getApproved n => U32' n
  | .ownedTokens _ limit cursor => limit < 2 ^ 16 ∧ U32' cursor
  | .transferFrom _ _ n => U32' n
  | .approve _ n => U32' n
  | .burn n => U32' n
  | .mint _ q => U32' q
  | .setMaxSupply x => U32' x
  | .setMintFee _ fee => U128' fee
  | .reRequestXls20 ns => ∀ n ∈ ns, U32' n
  | _ => True

/-- Many token numbers with as many amounts. -/
def Batch (ns qs : List Nat) : Prop := (∀ n ∈ ns, U32' n) ∧ (∀ q ∈ qs, U128' q) ∧ ns.length = qs.length

/-- The arguments of the functions of an SFT collection. -/
def Fits1155 : Evm1155.Call → Prop
  | .balanceOf _ n => U32' n
  | .balanceOfBatch as ns => (∀ n ∈ ns, U32' n) ∧ as.length = ns.length
  | .totalSupply n => U32' n
  | .exist n => U32' n
  | .transferFrom _ _ n q => U32' n ∧ U128' q
  | .batchTransferFrom _ _ ns qs => Batch ns qs
  | .burn _ n q => U32' n ∧ U128' q
  | .burnBatch _ ns qs => Batch ns qs
  | .mint _ n q => U32' n ∧ U128' q
  | .mintBatch _ ns qs => Batch ns qs
  | .createToken initial max _ => U128' initial ∧ U128' max
  | .setMaxSupply n x => U32' n ∧ U128' x
  | .togglePublicMint n _ => U32' n
  | .setMintFee n _ fee => U32' n ∧ U128' fee
  | _ => True

/-- The arguments of the functions of the marketplace, without the marketplace of an offer. -/
def FitsMarket : MarketEvm.Input → Prop
  | .registerMarketplace _ e => U32' e
  | .sellNft _ ns _ _ price dur market => (∀ n ∈ ns, U32' n) ∧ U128' price ∧ U32' dur ∧ U32' market
  | .sellSft _ ns qs _ _ price dur market => Batch ns qs ∧ U128' price ∧ U32' dur ∧ U32' market
  | .updateFixedPrice i price => U128' i ∧ U128' price
  | .buy i => U128' i
  | .auctionNft _ ns _ reserve dur market => (∀ n ∈ ns, U32' n) ∧ U128' reserve ∧ U32' dur ∧ U32' market
  | .auctionSft _ ns qs _ reserve dur market => Batch ns qs ∧ U128' reserve ∧ U32' dur ∧ U32' market
  | .bid i amount => U128' i ∧ U128' amount
  | .cancelSale i => U128' i
  | .makeSimpleOffer _ n amount _ _ => U32' n ∧ U128' amount
  | .cancelOffer i => U64' i
  | .acceptOffer i => U64' i
  | .getMarketplaceAccount m => U32' m
  | .getListingFromId i => U128' i
  | .getOfferFromId i => U64' i

/-- The arguments of the functions of the exchange; `value` is the XRP attached. The amount that `quote` is asked about is not stored. -/
def FitsDex (value : Nat) : DexEvm.Input → Prop
  | .addLiquidity _ _ da db ma mb _ dl => U128' da ∧ U128' db ∧ U128' ma ∧ U128' mb ∧ U32' dl
  | .addLiquidityETH _ d m me _ dl => U128' d ∧ U128' value ∧ U128' m ∧ U128' me ∧ U32' dl
  | .removeLiquidity _ _ l ma mb _ dl => U128' l ∧ U128' ma ∧ U128' mb ∧ U32' dl
  | .removeLiquidityETH _ l m me _ dl => U128' l ∧ U128' m ∧ U128' me ∧ U32' dl
  | .swapExactTokensForTokens i m _ _ dl => U128' i ∧ U128' m ∧ U32' dl
  | .swapTokensForExactTokens o m _ _ dl => U128' o ∧ U128' m ∧ U32' dl
  | .swapExactETHForTokens m _ _ dl => U128' value ∧ U128' m ∧ U32' dl
  | .swapTokensForExactETH o m _ _ dl => U128' o ∧ U128' m ∧ U32' dl
  | .swapExactTokensForETH i m _ _ dl => U128' i ∧ U128' m ∧ U32' dl
  | .swapETHForExactTokens o _ _ dl => U128' o ∧ U128' value ∧ U32' dl
  | .quote _ ra rb => U128' ra ∧ U128' rb
  | .getAmountIn o ri ro => U128' o ∧ U128' ri ∧ U128' ro
  | .getAmountOut i ri ro => U128' i ∧ U128' ri ∧ U128' ro
  | .getAmountsIn o _ => U128' o
  | .getAmountsOut i _ => U128' i

/-! ## Proofs -/

/-- **C230 (part).** The contract of an NFT collection. -/
theorem C230_erc721_partial {c : Nft.Cfg} {lim : Nat} {s : Nft.St} {m : Evm721.Msg} {k : Evm721.Call} {r : Nft.St × List Evm721.Log × Evm721.Out}
    (h : Evm721.call c lim s m k = some (.ok r)) : Fits721 k := by
  unfold Evm721.call at h
  cases hc : s.coll m.coll with
  | none => rw [hc] at h; cases h
  | some _ =>
    rw [hc] at h
    dsimp only at h
    have h := Option.some.inj h
    simp only [bind_ok, ensure_ok] at h
    obtain ⟨_, _, _, _, h⟩ := h
    cases k <;> simp only [Fits721] <;>
      simp only [Evm721.run, Evm721.serial, bind_ok, ensure_ok, okOr_ok] at h
    case ownerOf => exact h.choose_spec.1
    case getApproved => exact h.choose_spec.1
    case ownedTokens => obtain ⟨_, h1, _, h2, _⟩ := h; exact ⟨h1, h2⟩
    case transferFrom => exact h.choose_spec.1
    case approve => exact h.choose_spec.1
    case burn => exact h.choose_spec.1
    case mint => exact h.choose_spec.1
    case setMaxSupply => exact h.choose_spec.1
    case setMintFee => obtain ⟨_, _, _, h1, _⟩ := h; exact h1
    case reRequestXls20 => exact h.choose_spec.1

/-- **C230 (part).** A new NFT collection: its maximum issuance and the number of those who get royalties. -/
theorem C230_initialize_partial {c : Nft.Cfg} {s : Nft.St} {value owner max : Nat} {static : Bool} {addrs : List Acct} {ents : List Nat}
    {r : Nft.St × Nat} (h : Evm721.initialize721 c s value static owner max addrs ents = .ok r) :
    U32' max ∧ addrs.length = ents.length ∧ addrs.length ≤ 6 := by
  unfold Evm721.initialize721 at h
  simp only [bind_ok, ensure_ok] at h
  obtain ⟨_, _, _, _, _, h1, _, h2, _, h3, _⟩ := h
  exact ⟨h1, h2, h3⟩

theorem pairs_batch {ns qs : List Nat} {xs : List (Nat × Nat)} (h : Evm1155.pairs ns qs = .ok xs) : Batch ns qs := by
  unfold Evm1155.pairs at h
  simp only [bind_ok, ensure_ok] at h
  obtain ⟨_, h1, _, h2, _, h3, _⟩ := h
  exact ⟨h1, h2, h3⟩

/-- **C230 (part).** The contract of an SFT collection. -/
theorem C230_erc1155_partial {c : Sft.Cfg} {s : Sft.St} {m : Evm1155.Msg} {k : Evm1155.Call} {r : Sft.St × List Evm1155.Log × Evm1155.Out}
    (h : Evm1155.call c s m k = some (.ok r)) : Fits1155 k := by
  unfold Evm1155.call at h
  cases hc : s.coll m.coll with
  | none => rw [hc] at h; cases h
  | some _ =>
    rw [hc] at h
    dsimp only at h
    have h := Option.some.inj h
    simp only [bind_ok, ensure_ok] at h
    obtain ⟨_, _, _, _, h⟩ := h
    cases k <;> simp only [Fits1155] <;>
      simp only [Evm1155.run, Evm1155.serial, Evm1155.amount, bind_ok, ensure_ok, okOr_ok] at h
    case balanceOf => exact h.choose_spec.1
    case balanceOfBatch => obtain ⟨_, h1, _, h2, _⟩ := h; exact ⟨h2, h1⟩
    case totalSupply => exact h.choose_spec.1
    case exist => exact h.choose_spec.1
    case transferFrom => obtain ⟨_, h1, _, h2, _⟩ := h; exact ⟨h1, h2⟩
    case batchTransferFrom => obtain ⟨_, h1, _⟩ := h; exact pairs_batch h1
    case burn => obtain ⟨_, h1, _, h2, _⟩ := h; exact ⟨h1, h2⟩
    case burnBatch => obtain ⟨_, h1, _⟩ := h; exact pairs_batch h1
    case mint => obtain ⟨_, h1, _, h2, _⟩ := h; exact ⟨h1, h2⟩
    case mintBatch => obtain ⟨_, h1, _⟩ := h; exact pairs_batch h1
    case createToken => obtain ⟨_, h1, _, h2, _⟩ := h; exact ⟨h1, h2⟩
    case setMaxSupply => obtain ⟨_, h1, _, h2, _⟩ := h; exact ⟨h1, h2⟩
    case togglePublicMint => exact h.choose_spec.1
    case setMintFee => obtain ⟨_, h1, _, _, _, h2, _⟩ := h; exact ⟨h1, h2⟩

theorem toBalance_fits {x y : Nat} (h : DexEvm.toBalance x = .ok y) : U128' x := by
  unfold DexEvm.toBalance at h
  split at h
  · assumption
  · cases h

theorem toBlock_fits {x y : Nat} (h : DexEvm.toBlock x = .ok y) : U32' x := by
  unfold DexEvm.toBlock at h
  split at h
  · assumption
  · cases h

theorem duration_fits {x : Nat} {y : Option Nat} (h : MarketEvm.duration x = .ok y) : U32' x := by
  unfold MarketEvm.duration at h
  simp only [bind_ok] at h
  exact toBlock_fits h.choose_spec.1

theorem serialList_fits {c : Market.Cfg} {ns l : List Nat} (h : MarketEvm.serialList c ns = .ok l) : ∀ n ∈ ns, U32' n := by
  unfold MarketEvm.serialList at h
  simp only [bind_ok, ensure_ok] at h
  exact h.choose_spec.1

theorem pieces_batch {c : Market.Cfg} {ns qs : List Nat} {xs : List (Nat × Nat)} (h : MarketEvm.pieces c ns qs = .ok xs) : Batch ns qs := by
  unfold MarketEvm.pieces at h
  simp only [bind_ok, ensure_ok] at h
  obtain ⟨_, h1, _, h2, _⟩ := h
  exact ⟨h2.1, h2.2, h1⟩

theorem sell_fits {c : Market.Cfg} {s : Market.St} {w : Acct} {t : Market.Tokens} {b a p d m : Nat} {r : Market.St × MarketEvm.Answer}
    (h : MarketEvm.sell c s w t b a p d m = .ok r) : U128' p ∧ U32' d ∧ U32' m := by
  unfold MarketEvm.sell MarketEvm.fits at h
  simp only [bind_ok, ensure_ok] at h
  obtain ⟨_, h1, _, _, _, h2, _, h3, _⟩ := h
  exact ⟨h3, duration_fits h2, h1⟩

theorem auction_fits {c : Market.Cfg} {s : Market.St} {w : Acct} {t : Market.Tokens} {a p d m : Nat} {r : Market.St × MarketEvm.Answer}
    (h : MarketEvm.auction c s w t a p d m = .ok r) : U128' p ∧ U32' d ∧ U32' m := by
  unfold MarketEvm.auction MarketEvm.fits at h
  simp only [bind_ok, ensure_ok] at h
  obtain ⟨_, h1, _, h2, _, h3, _⟩ := h
  exact ⟨h3, duration_fits h2, h1⟩

/-- **C230 (part).** The marketplace. Missing: the marketplace of an offer. -/
theorem C230_market_partial {c : Market.Cfg} {s : Market.St} {isStatic : Bool} {w : Acct} {value : Nat} {i : MarketEvm.Input}
    {r : Market.St × MarketEvm.Answer} (h : MarketEvm.call c s isStatic w value i = .ok r) : FitsMarket i := by
  unfold MarketEvm.call at h
  simp only [bind_ok] at h
  obtain ⟨_, _, h⟩ := h
  cases i <;> simp only [FitsMarket] <;> simp only [MarketEvm.run, MarketEvm.fits, bind_ok, ensure_ok] at h
  case registerMarketplace => exact h.choose_spec.1
  case sellNft => obtain ⟨_, _, _, h1, h2⟩ := h; exact ⟨serialList_fits h1, sell_fits h2⟩
  case sellSft => obtain ⟨_, _, _, h1, h2⟩ := h; exact ⟨pieces_batch h1, sell_fits h2⟩
  case updateFixedPrice => obtain ⟨_, h1, _, h2, _⟩ := h; exact ⟨h1, h2⟩
  case buy => exact h.choose_spec.1
  case auctionNft => obtain ⟨_, _, _, h1, h2⟩ := h; exact ⟨serialList_fits h1, auction_fits h2⟩
  case auctionSft => obtain ⟨_, _, _, h1, h2⟩ := h; exact ⟨pieces_batch h1, auction_fits h2⟩
  case bid => obtain ⟨_, h1, _, h2, _⟩ := h; exact ⟨h1, h2⟩
  case cancelSale => exact h.choose_spec.1
  case makeSimpleOffer => obtain ⟨_, h1, _, _, _, h2, _⟩ := h; exact ⟨h2, h1⟩
  case cancelOffer => exact h.choose_spec.1
  case acceptOffer => exact h.choose_spec.1
  case getMarketplaceAccount => exact h.choose_spec.1
  case getListingFromId => exact h.choose_spec.1
  case getOfferFromId => exact h.choose_spec.1

theorem add_fits {c : Dex.Cfg} {s : Dex.St} {w d : Acct} {a b : AssetId} {x y m n dl : Nat} {r : Dex.St × List Nat}
    (h : DexEvm.add c s w a b x y m n d dl = .ok r) : U128' x ∧ U128' y ∧ U128' m ∧ U128' n ∧ U32' dl := by
  unfold DexEvm.add at h
  simp only [bind_ok] at h
  obtain ⟨_, h1, _, h2, _, h3, _, h4, _, h5, _⟩ := h
  exact ⟨toBalance_fits h1, toBalance_fits h2, toBalance_fits h3, toBalance_fits h4, toBlock_fits h5⟩

theorem remove_fits {s : Dex.St} {w d : Acct} {a b : AssetId} {x m n dl : Nat} {r : Dex.St × List Nat}
    (h : DexEvm.remove s w a b x m n d dl = .ok r) : U128' x ∧ U128' m ∧ U128' n ∧ U32' dl := by
  unfold DexEvm.remove at h
  simp only [bind_ok] at h
  obtain ⟨_, h1, _, h2, _, h3, _, h4, _⟩ := h
  exact ⟨toBalance_fits h1, toBalance_fits h2, toBalance_fits h3, toBlock_fits h4⟩

theorem dexSell_fits {c : Dex.Cfg} {s : Dex.St} {w d : Acct} {x m dl : Nat} {p : List Nat} {r : Dex.St × List Nat}
    (h : DexEvm.sell c s w x m p d dl = .ok r) : U128' x ∧ U128' m ∧ U32' dl := by
  unfold DexEvm.sell at h
  simp only [bind_ok] at h
  obtain ⟨_, _, _, h1, _, h2, _, h3, _⟩ := h
  exact ⟨toBalance_fits h1, toBalance_fits h2, toBlock_fits h3⟩

theorem dexBuy_fits {c : Dex.Cfg} {s : Dex.St} {w d : Acct} {x m dl : Nat} {p : List Nat} {r : Dex.St × List Nat}
    (h : DexEvm.buy c s w x m p d dl = .ok r) : U128' x ∧ U128' m ∧ U32' dl := by
  unfold DexEvm.buy at h
  simp only [bind_ok] at h
  obtain ⟨_, _, _, h1, _, h2, _, h3, _⟩ := h
  exact ⟨toBalance_fits h1, toBalance_fits h2, toBlock_fits h3⟩

/-- **C230 (part).** The exchange. -/
theorem C230_dex_partial {c : Dex.Cfg} {s : Dex.St} {k : DexEvm.Call} {r : Dex.St × List Nat} (h : DexEvm.call c s k = .ok r) :
    FitsDex k.value k.input := by
  unfold DexEvm.call at h
  simp only [bind_ok] at h
  obtain ⟨_, _, _, _, h⟩ := h
  cases hi : k.input <;> rw [hi] at h <;> simp only [FitsDex] <;> simp only [DexEvm.dispatch, bind_ok] at h
  case addLiquidity => obtain ⟨_, _, _, _, h⟩ := h; exact add_fits h
  case addLiquidityETH => obtain ⟨_, _, h⟩ := h; exact add_fits h
  case removeLiquidity => obtain ⟨_, _, _, _, h⟩ := h; exact remove_fits h
  case removeLiquidityETH => obtain ⟨_, _, h⟩ := h; exact remove_fits h
  case swapExactTokensForTokens => exact dexSell_fits h
  case swapTokensForExactTokens => exact dexBuy_fits h
  case swapExactETHForTokens => exact dexSell_fits h
  case swapTokensForExactETH => exact dexBuy_fits h
  case swapExactTokensForETH => exact dexSell_fits h
  case swapETHForExactTokens => exact dexBuy_fits h
  case quote => obtain ⟨_, h1, _, h2, _⟩ := h; exact ⟨toBalance_fits h1, toBalance_fits h2⟩
  case getAmountIn => obtain ⟨_, h1, _, h2, _, h3, _⟩ := h; exact ⟨toBalance_fits h1, toBalance_fits h2, toBalance_fits h3⟩
  case getAmountOut => obtain ⟨_, h1, _, h2, _, h3, _⟩ := h; exact ⟨toBalance_fits h1, toBalance_fits h2, toBalance_fits h3⟩
  case getAmountsIn => obtain ⟨_, _, _, h1, _⟩ := h; exact toBalance_fits h1
  case getAmountsOut => obtain ⟨_, _, _, h1, _⟩ := h; exact toBalance_fits h1

/-- **C230 (part).** Withdrawals through the bridge's contract. -/
theorem C230_peg_partial {c : Outbound.Cfg} {w : PegEvm.World} {k : PegEvm.Ctx} {r : PegEvm.World × Nat} :
    (∀ ben addr amount, PegEvm.erc20Withdraw c w k ben addr amount = .ok r → U128' amount) ∧
    ∀ ben addrs serials, PegEvm.erc721Withdraw c w k ben addrs serials = .ok r → ∀ ns ∈ serials, ∀ n ∈ ns, U32' n := by
  refine ⟨fun ben addr amount h => ?_, fun ben addrs serials h => ?_⟩
  · unfold PegEvm.erc20Withdraw at h
    simp only [bind_ok, ensure_ok] at h
    obtain ⟨_, _, _, _, _, h1, _⟩ := h
    exact h1
  · unfold PegEvm.erc721Withdraw at h
    simp only [bind_ok, ensure_ok] at h
    obtain ⟨_, _, _, _, _, _, _, h1, _⟩ := h
    exact fun ns hn => (h1 ns hn).1

/-- Calls with numbers that fit succeed, the same calls with larger ones do not. -/
example : (Evm721.said (Evm721.call Nft.cfg0 1000 Nft.demo (Evm721.msg 1) (.setMintFee (some 4) (2 ^ 128 - 1)))).isSome = true ∧
    (Evm721.said (Evm721.call Nft.cfg0 1000 Nft.demo (Evm721.msg 1) (.setMintFee (some 4) (2 ^ 128)))).isSome = false ∧
    (Evm721.said (Evm721.call Nft.cfg0 1000 Nft.demo (Evm721.msg 1) (.ownedTokens 1 65535 0))).isSome = true ∧
    (Evm721.said (Evm721.call Nft.cfg0 1000 Nft.demo (Evm721.msg 1) (.ownedTokens 1 65536 0))).isSome = false := by decide +kernel

example : (MarketEvm.call Market.cfg0 MarketEvm.head false 2 0 (.registerMarketplace 0 4294967295)).isOk = true ∧
    (MarketEvm.call Market.cfg0 MarketEvm.head false 2 0 (.registerMarketplace 0 4294967296)).isOk = false := by decide +kernel

/-- **C230 (refuted for allowances).** An approval of an asset over `2^128` is an approval over `2^128 - 1`. -/
theorem C230_approve_refuted : ∃ w s l o, Evm20.Reach w ∧ Evm20.execute w.st (Evm20.msg 101 5) (.approve 7 (2 ^ 128)) = .ok (s, l, o) ∧
    s.allow 5 101 7 = some (2 ^ 128 - 1) := by
  refine ⟨Evm20.w1, Evm20.setAllow Evm20.w1.st 5 101 7 (some (Erc20.sat (2 ^ 128))), [.approval 5 7 (Erc20.sat (2 ^ 128))], .flag true,
    Evm20.w1_reach, ?_, ?_⟩
  · unfold Evm20.execute Evm20.run Evm20.approve
    simp only [bind_ok, ensure_ok]
    exact ⟨(), by decide +kernel, (), .inl rfl, (), rfl, (), by decide, rfl⟩
  · decide +kernel

/-- **C230 (refuted for shares).** A marketplace registered with 500 per cent of every sale takes a hundred per cent. -/
theorem C230_share_refuted : ∃ s, Market.Reach Market.cfg0 (Market.Env Market.cfg0) s ∧
    (MarketEvm.call Market.cfg0 s false 2 0 (.registerMarketplace 0 5000000)).toOption.map
      (fun p => (p.1.markets s.nextMarket).map Prod.snd) = some (some 1000000) :=
  ⟨MarketEvm.head, MarketEvm.head_reach, by decide +kernel⟩

end Verif.Wide
