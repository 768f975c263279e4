import Verif.Base.Bytes
import Verif.Base.Checked
import Verif.Base.FMap
import Verif.Base.Keccak256
import Verif.Base.Ord
import Verif.Base.Res
import Verif.Base.Secp256k1
import Verif.Lemmas.Account
import Verif.Lemmas.Answers
import Verif.Lemmas.Burns
import Verif.Lemmas.Cbor
import Verif.Lemmas.Config
import Verif.Lemmas.Deposits
import Verif.Lemmas.Endpoint
import Verif.Lemmas.EventCbor
import Verif.Lemmas.Evm
import Verif.Lemmas.Finalize
import Verif.Lemmas.Fork
import Verif.Lemmas.Frame
import Verif.Lemmas.Handlers
import Verif.Lemmas.Icrc
import Verif.Lemmas.Known
import Verif.Lemmas.Live
import Verif.Lemmas.Locks
import Verif.Lemmas.MKM
import Verif.Lemmas.MintInv
import Verif.Lemmas.Nonces
import Verif.Lemmas.Proj
import Verif.Lemmas.Refine
import Verif.Lemmas.ReimbInv
import Verif.Lemmas.Replay
import Verif.Lemmas.Resume
import Verif.Lemmas.Rising
import Verif.Lemmas.Scrape
import Verif.Lemmas.SentOrder
import Verif.Lemmas.Serve
import Verif.Lemmas.Shift
import Verif.Lemmas.Sound
import Verif.Lemmas.SoundInv
import Verif.Lemmas.Status
import Verif.Lemmas.Story
import Verif.Lemmas.Tasks
import Verif.Lemmas.Thread
import Verif.Lemmas.Track
import Verif.Lemmas.Truth
import Verif.Lemmas.TxCore
import Verif.Lemmas.TxHist
import Verif.Lemmas.TxInv
import Verif.Lemmas.TxLog
import Verif.Lemmas.TxOps
import Verif.Lemmas.Unreceipted
import Verif.Lemmas.WorldScrape
import Verif.Model.Address
import Verif.Model.CallData
import Verif.Model.Cbor
import Verif.Model.CheckedAmount
import Verif.Model.DepositHelper
import Verif.Model.EventCbor
import Verif.Model.Events
import Verif.Model.GasFee
import Verif.Model.Info
import Verif.Model.KeyStore
import Verif.Model.LedgerArgs
import Verif.Model.Logs
import Verif.Model.Lsm
import Verif.Model.MultiKeyMap
import Verif.Model.Parser
import Verif.Model.Providers
import Verif.Model.Ranges
import Verif.Model.Registration
import Verif.Model.Requests
import Verif.Model.Rlp
import Verif.Model.Rpc
import Verif.Model.Scrape
import Verif.Model.Search
import Verif.Model.Sign
import Verif.Model.State
import Verif.Model.Storage
import Verif.Model.Swap
import Verif.Model.Tasks
import Verif.Model.Texts
import Verif.Model.Timers
import Verif.Model.Transactions
import Verif.Model.Tx
import Verif.Model.Types
import Verif.Model.Upgrade
import Verif.Model.Withdraw
import Verif.Props.C01
import Verif.Props.C02
import Verif.Props.C04
import Verif.Props.C05
import Verif.Props.C06
import Verif.Props.C07
import Verif.Props.C08
import Verif.Props.C10
import Verif.Props.C11
import Verif.Props.C12
import Verif.Props.C15
import Verif.Props.C18
import Verif.Props.C20
import Verif.Props.C21
import Verif.Props.C25
import Verif.Props.C27
import Verif.Props.C28
import Verif.Props.C29
import Verif.Props.C30
import Verif.Props.C33
import Verif.Props.C34
import Verif.Props.C35
import Verif.Props.C36
import Verif.Props.C37
import Verif.Props.C38
import Verif.Props.C39
import Verif.Props.C40
import Verif.Props.C41
import Verif.Props.C42
import Verif.Props.C43
import Verif.Props.C44
import Verif.Props.C48
import Verif.Props.C49
import Verif.Props.C50
import Verif.Props.C51
import Verif.Props.C53
import Verif.Props.C55
import Verif.Props.C57
import Verif.Props.C58
import Verif.Props.C59
import Verif.Props.C60
import Verif.Props.C61
import Verif.Props.C62
import Verif.Props.C63
import Verif.Props.C64
import Verif.Props.C66
import Verif.Props.C67
import Verif.Props.C68
import Verif.Props.C69
import Verif.Props.C70
import Verif.Props.C71
import Verif.Props.C72
import Verif.Props.C73
import Verif.Props.C74
import Verif.Props.C75
import Verif.Props.C76
import Verif.Props.C77
import Verif.Props.C78
import Verif.Props.C79
import Verif.Props.C80
import Verif.Props.C81
import Verif.Props.C82
import Verif.Props.C83
import Verif.Props.C84
import Verif.Props.C85
import Verif.Props.C86
import Verif.Props.C87
import Verif.Props.C88
import Verif.Props.C89
import Verif.Props.C90
import Verif.Props.Followed
import Verif.Props.Vectors
import Verif.Spec.Account
import Verif.Spec.Backing
import Verif.Spec.Calls
import Verif.Spec.CborItem
import Verif.Spec.Chain
import Verif.Spec.Charge
import Verif.Spec.Endpoint
import Verif.Spec.EventItem
import Verif.Spec.Evm
import Verif.Spec.Example
import Verif.Spec.ExampleBank
import Verif.Spec.ExampleEvm
import Verif.Spec.ExampleFork
import Verif.Spec.ExampleHistory
import Verif.Spec.ExampleRun
import Verif.Spec.ExampleTrail
import Verif.Spec.ExampleWatch
import Verif.Spec.ExampleWorld
import Verif.Spec.Fair
import Verif.Spec.Filter
import Verif.Spec.Fork
import Verif.Spec.Forward
import Verif.Spec.Helper
import Verif.Spec.History
import Verif.Spec.Icrc
import Verif.Spec.Json
import Verif.Spec.Live
import Verif.Spec.Mint
import Verif.Spec.Node
import Verif.Spec.Outgoing
import Verif.Spec.Pipeline
import Verif.Spec.Priced
import Verif.Spec.Raised
import Verif.Spec.ReadEvents
import Verif.Spec.RlpDecode
import Verif.Spec.Scrape
import Verif.Spec.ScrapeLimits
import Verif.Spec.Serve
import Verif.Spec.Sign
import Verif.Spec.Solvency
import Verif.Spec.Status
import Verif.Spec.Trace
import Verif.Spec.Truth
import Verif.Spec.Typed
import Verif.Spec.Watch
import Verif.Spec.World
