import Verif.Base
import Verif.Ledger
import Verif.Dex.Model
import Verif.Dex.Lemmas
import Verif.Dex.Inv
import Verif.Dex.Effect
import Verif.Dex.Fee
import Verif.Dex.Demo
import Verif.Dex.Props
import Verif.Dex.Limits
import Verif.Ethy.Model
import Verif.Ethy.Lemmas
import Verif.Ethy.Inv
import Verif.Ethy.Track
import Verif.Ethy.Sched
import Verif.Ethy.Votes
import Verif.Ethy.Demo
import Verif.Ethy.Props
import Verif.Ethy.Skip
import Verif.EthyProof.Model
import Verif.EthyProof.Lemmas
import Verif.EthyProof.Props
import Verif.EthCall.Model
import Verif.EthCall.Props
import Verif.Witness.Model
import Verif.Witness.Lemmas
import Verif.Witness.Inv
import Verif.Witness.Props
import Verif.Witness.Expand
import Verif.Nft.Model
import Verif.Nft.Lemmas
import Verif.Nft.Inv
import Verif.Nft.Pages
import Verif.Nft.Props
import Verif.Nft.Rights
import Verif.Sft.Model
import Verif.Sft.Lemmas
import Verif.Sft.Inv
import Verif.Sft.Props
import Verif.Sft.Access
import Verif.Holds.Model
import Verif.Holds.Lemmas
import Verif.Holds.Props
import Verif.Market.Model
import Verif.Market.Tokens
import Verif.Market.Pay
import Verif.Market.Inv
import Verif.Market.Money
import Verif.Market.Good
import Verif.Market.Effects
import Verif.Market.Props
import Verif.Market.Bids
import Verif.Erc20Peg.Model
import Verif.Erc20Peg.Spec
import Verif.Erc20Peg.Inv
import Verif.Erc20Peg.Queue
import Verif.Erc20Peg.Sched
import Verif.Erc20Peg.Props
import Verif.Market.Rights
import Verif.Erc20Peg.Effects
import Verif.Erc20Peg.Story
import Verif.Erc20.Model
import Verif.Erc20.Props
import Verif.Xrpl.Model
import Verif.Xrpl.Frames
import Verif.Xrpl.Deposits
import Verif.Xrpl.Credit
import Verif.Xrpl.Amount
import Verif.Xrpl.Sched
import Verif.Xrpl.Delayed
import Verif.Xrpl.Tickets
import Verif.Xrpl.Demo
import Verif.Xrpl.Blocks
import Verif.Xrpl.Allot
import Verif.Xrpl.Reset
import Verif.Asset.Model
import Verif.Asset.Inv
import Verif.Asset.Props
import Verif.Era.Props
import Verif.Wide.Props
import Verif.Erc20Peg.Settings
import Verif.Nfi.Settings
import Verif.Nfi.Story
import Verif.Xls20.Settings
import Verif.Xls20.Story
import Verif.Market.Settings
import Verif.Market.Log
import Verif.Market.Story
import Verif.Market.Events
import Verif.Xrpl.Settings
import Verif.Xrpl.Story
import Verif.Vortex.Model
import Verif.Vortex.Spec
import Verif.Vortex.Frames
import Verif.Vortex.Inv
import Verif.Vortex.Cover
import Verif.Vortex.Props
import Verif.Vortex.Demo
import Verif.Vortex.Settings
import Verif.Vortex.Worker
import Verif.Vortex.Story
import Verif.Crowdsale.Model
import Verif.Crowdsale.Spec
import Verif.Crowdsale.Frames
import Verif.Crowdsale.Ops
import Verif.Crowdsale.Share
import Verif.Crowdsale.Inv
import Verif.Crowdsale.Step
import Verif.Crowdsale.Pay
import Verif.Crowdsale.Close
import Verif.Crowdsale.Life
import Verif.Crowdsale.Time
import Verif.Crowdsale.Props
import Verif.Crowdsale.Demo
import Verif.Crowdsale.Story
import Verif.Crowdsale.Worker
import Verif.Futurepass.Model
import Verif.Futurepass.Frames
import Verif.Futurepass.Spec
import Verif.Futurepass.Ops
import Verif.Futurepass.Inv
import Verif.Futurepass.Acts
import Verif.Futurepass.Demo
import Verif.Futurepass.Props
import Verif.EvmMoney.Model
import Verif.EvmMoney.Lemmas
import Verif.EvmMoney.Inv
import Verif.EvmMoney.Reissue
import Verif.EvmMoney.Safe
import Verif.EvmMoney.Settle
import Verif.EvmMoney.Demo
import Verif.EvmMoney.Props
import Verif.Entry.Model
import Verif.Entry.Lemmas
import Verif.Entry.User
import Verif.Entry.Inv
import Verif.Entry.Demo
import Verif.Entry.Props
import Verif.Entry.Props2
import Verif.Entry.Props3
import Verif.Entry.Props4
import Verif.NftPeg.Model
import Verif.NftPeg.Lemmas
import Verif.NftPeg.Inv
import Verif.NftPeg.Props
import Verif.NftPeg.Props2
import Verif.NftPeg.Props3
import Verif.Xls20.Model
import Verif.Xls20.Inv
import Verif.Xls20.Props
import Verif.Xls20.Props2
import Verif.Xls20.Guard
import Verif.Entry.Props5
import Verif.Migration.Model
import Verif.Migration.Props
import Verif.Migration.Props2
import Verif.Nfi.Model
import Verif.Nfi.Inv
import Verif.Nfi.Props
import Verif.NfiUpgrade.Model
import Verif.NfiUpgrade.Lemmas
import Verif.NfiUpgrade.Props
import Verif.Callback.Model
import Verif.Callback.Lemmas
import Verif.Callback.Sft
import Verif.Callback.Props
import Verif.Callback.Nest
import Verif.Precompile.Model
import Verif.Precompile.Props
import Verif.Precompile.Code
import Verif.DexEvm.Model
import Verif.DexEvm.Lemmas
import Verif.DexEvm.Props
import Verif.DexEvm.Rest
import Verif.Abi.Model
import Verif.Abi.Spec
import Verif.Abi.Write
import Verif.Abi.Read
import Verif.Abi.Sound
import Verif.Abi.Props
import Verif.Abi.Blowup
import Verif.Gossip.Model
import Verif.Gossip.Lemmas
import Verif.Gossip.Block
import Verif.Gossip.Inv
import Verif.Gossip.Count
import Verif.Gossip.Props
import Verif.Gossip.Finality
import Verif.Sign.Model
import Verif.Sign.Spec
import Verif.Sign.Lemmas
import Verif.Sign.Props
import Verif.MarketEvm.Model
import Verif.MarketEvm.Props
import Verif.MarketEvm.Offers
import Verif.Notary.Model
import Verif.Notary.Spec
import Verif.Notary.Data
import Verif.Notary.Votes
import Verif.Notary.Props
import Verif.Outbound.Model
import Verif.Outbound.Spec
import Verif.Outbound.Data
import Verif.Outbound.Typed
import Verif.Outbound.Inv
import Verif.Outbound.Step
import Verif.Outbound.History
import Verif.Outbound.Decode
import Verif.Outbound.Props
import Verif.Outbound.Inbound
import Verif.Evm721.Model
import Verif.Evm721.Spec
import Verif.Evm721.Lemmas
import Verif.Evm721.Props
import Verif.Evm1155.Model
import Verif.Evm1155.Spec
import Verif.Evm1155.Props
import Verif.Door.Model
import Verif.Door.Spec
import Verif.Door.Inv
import Verif.Door.Safe
import Verif.Door.Sync
import Verif.Door.Props
import Verif.Evm20.Model
import Verif.Evm20.Spec
import Verif.Evm20.Props
import Verif.Dex.Live
import Verif.Dex.LiveProps
import Verif.EvmMoney.Admit
import Verif.PegEvm.Model
import Verif.PegEvm.Lemmas
import Verif.PegEvm.Props
import Verif.Static.Model
import Verif.Static.Props
import Verif.Fees.Model
import Verif.Fees.Props
import Verif.ProofRpc.Model
import Verif.ProofRpc.Inv
import Verif.ProofRpc.Props
import Verif.ProofRpc.Serve
import Verif.Gas.Props
import Verif.Uri.Model
import Verif.Uri.Props
import Verif.Text.Model
import Verif.Text.Props
import Verif.Imbalance.Model
import Verif.Imbalance.Props
import Verif.Nft.Log
import Verif.Nft.Story
import Verif.Nft.Events
import Verif.Sft.Log
import Verif.Sft.Story
import Verif.Dex.Log
import Verif.Dex.Story
import Verif.Futurepass.Story
import Verif.NftPeg.Settings
import Verif.NftPeg.Story
import Verif.Echo.Model
import Verif.Echo.Props
import Verif.Ethy.Settings
import Verif.Ethy.Story
import Verif.EthyProof.Settings
import Verif.Migration.Settings
import Verif.Blame.Model
import Verif.Blame.Props
import Verif.Blame.Text
import Verif.Holds.Story
import Verif.Asset.Story
import Verif.Entry.Story
import Verif.Entry.Wrapped
import Verif.Migration.Story
import Verif.Fees.Story
import Verif.Outbound.Story
import Verif.Imbalance.Story
import Verif.Door.Story
import Verif.Relocate.Props
import Verif.Selectors.Props
import Verif.Bags.Props
import Verif.SignKeys.Chain
import Verif.NodeFlags.Props
import Verif.Prompt.Props
import Verif.Prompt.Delivered
