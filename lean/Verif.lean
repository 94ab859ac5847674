import Verif.Base.Outcome
import Verif.Base.Bytes
import Verif.Ser.ByteBuffer
import Verif.Ser.Reads
import Verif.Props.ByteBuffer
import Verif.Ser.Pow
import Verif.Ser.PowLemmas
import Verif.Props.Pow
import Verif.Ser.Core
import Verif.Ser.CoreLemmas
import Verif.Props.Core
import Verif.MMR.Index
import Verif.MMR.Tree
import Verif.MMR.IndexLemmas
import Verif.Props.MMRIndex
import Verif.MMR.Hash
import Verif.MMR.HashSpec
import Verif.MMR.HashLemmas
import Verif.Props.MMR
import Verif.MMR.Prune
import Verif.MMR.PruneLemmas
import Verif.MMR.PruneCount
import Verif.MMR.PruneHistory
import Verif.MMR.Pruneable
import Verif.MMR.PruneableLemmas
import Verif.Props.Prune
import Verif.File.AppendOnly
import Verif.File.AppendOnlyLemmas
import Verif.Props.DataFile
import Verif.File.Bitmap
import Verif.File.BitmapLemmas
import Verif.Props.Bitmap
import Verif.File.Crash
import Verif.Props.Crash
import Verif.File.Batch
import Verif.Props.Batch
import Verif.Codec.Text
import Verif.Codec.Hex
import Verif.Props.Hex
import Verif.Codec.Base58
import Verif.Codec.Base58Lemmas
import Verif.Props.Base58
import Verif.Codec.Bech32
import Verif.Codec.Bech32Lemmas
import Verif.Props.Bech32
import Verif.Codec.Armor
import Verif.Props.Armor
import Verif.Codec.WordList
import Verif.Codec.Mnemonic
import Verif.Codec.MnemonicLemmas
import Verif.Props.Mnemonic
import Verif.Codec.KeyPath
import Verif.Props.KeyPath
import Verif.Codec.WalletRecord
import Verif.Props.WalletRecord
import Verif.Codec.Slate
import Verif.Props.Slate
import Verif.Codec.Messages
import Verif.Props.Messages
import Verif.Conc.Locks
import Verif.Props.Locks
import Verif.PoW.Cuckoo
import Verif.PoW.CuckooLemmas
import Verif.PoW.CuckooDirected
import Verif.Props.Cuckoo
import Verif.Props.Accepts
import Verif.PoW.Consensus
import Verif.PoW.Difficulty
import Verif.Props.Difficulty
import Verif.Props.HeaderRules
import Verif.Tx.Body
import Verif.Props.TxBody
import Verif.Tx.TxHashSet
import Verif.Tx.TxHashSetLemmas
import Verif.Props.TxHashSet
import Verif.Tx.Sums
import Verif.Props.Sums
import Verif.Chain.Store
import Verif.Chain.Process
import Verif.Chain.ProcessLemmas
import Verif.Chain.CandidateLemmas
import Verif.Props.Chain
import Verif.Props.Process
import Verif.Tx.Compact
import Verif.Props.Compact
import Verif.Tx.Pool
import Verif.Props.Pool
import Verif.Wallet.Select
import Verif.Wallet.DB
import Verif.Wallet.DBLemmas
import Verif.Wallet.History
import Verif.Props.Send
import Verif.Props.Wallet
import Verif.Props.Cancel
import Verif.Props.WalletHistory
import Verif.Wallet.Sign
import Verif.Wallet.Session
import Verif.Wallet.Amount
import Verif.Props.Sign
import Verif.Props.Session
import Verif.Props.Amount
import Verif.P2P.Locator
import Verif.P2P.Peers
import Verif.P2P.Net
import Verif.P2P.Sync
import Verif.Props.Locator
import Verif.Props.Peers
import Verif.Props.Net
import Verif.Props.Sync
import Verif.Cache.Cache
import Verif.Cache.BlockDB
import Verif.Cache.Lru
import Verif.Cache.Proofs
import Verif.Chain.Orphans
import Verif.Tx.Snapshot
import Verif.Props.Cache
import Verif.Props.BlockDB
import Verif.Props.Proofs
import Verif.Props.Orphans
import Verif.Props.Snapshot
import Verif.Chain.SyncLemmas
import Verif.P2P.HeaderSync
import Verif.P2P.BlockSync
import Verif.Tx.BlockRules
import Verif.Props.HeaderSync
import Verif.Props.BlockSync
import Verif.Props.BlockRules
import Verif.Tx.Listing
import Verif.Wallet.Restore
import Verif.Props.Restore
import Verif.Wallet.Estimate
import Verif.Props.Estimate
import Verif.Wallet.Crypt
import Verif.Props.Crypt
import Verif.Codec.Json
import Verif.Props.Json
import Verif.PoW.Uint128
import Verif.Props.Uint128
import Verif.Codec.Base64
import Verif.Props.Base64
import Verif.Codec.Age
import Verif.Codec.AgeLemmas
import Verif.Props.Age
import Verif.P2P.Archive
import Verif.Props.Archive
import Verif.Codec.Segment
import Verif.Props.Segment
import Verif.Wallet.Keys
import Verif.Props.Keys
import Verif.P2P.Dandelion
import Verif.Props.Dandelion
import Verif.P2P.BlockPipe
import Verif.Props.Converge
import Verif.Wallet.Schema
import Verif.Props.Schema
import Verif.Wallet.Names
import Verif.Props.Names
import Verif.Codec.Onion
import Verif.Props.Onion
import Verif.Wallet.PayProof
import Verif.Props.PayProof
import Verif.Chain.Resync
import Verif.Props.Resync
import Verif.Api.Query
import Verif.Props.Query
import Verif.Ser.Takes
import Verif.Props.Relay
import Verif.Tx.KernelSigs
import Verif.Props.KernelSigs
import Verif.Wallet.Addresses
import Verif.Props.Addresses
import Verif.Net.TorControl
import Verif.Props.TorControl
import Verif.P2P.Book
import Verif.Props.Book
import Verif.PoW.Sip
import Verif.Props.Sip
import Verif.Wallet.Coinbase
import Verif.Props.Coinbase
import Verif.Wallet.Exchange
import Verif.Props.Exchange
import Verif.Net.Rpc
import Verif.Props.Rpc
import Verif.Net.Settings
import Verif.Props.Settings
import Verif.Net.Torrc
import Verif.Props.Torrc
import Verif.Wallet.TxList
import Verif.Props.TxList
import Verif.Net.HttpClient
import Verif.Props.HttpClient
import Verif.Codec.Time
import Verif.Net.RemoteNode
import Verif.Props.RemoteNode
import Verif.Wallet.Owner
import Verif.Props.Owner
import Verif.Wallet.Finalize
import Verif.Props.Finalize
import Verif.Wallet.Payment
import Verif.Props.Payment
import Verif.Api.State
import Verif.Props.StateApi
import Verif.Wallet.Letters
import Verif.Props.Letters
import Verif.Props.Mined
import Verif.Wallet.Requests
import Verif.Props.Requests
import Verif.Wallet.ListOutputs
import Verif.Props.ListOutputs
import Verif.Chain.OpenDB
import Verif.Props.OpenDB
import Verif.Props.Strangers
import Verif.Wallet.Foreign
import Verif.Props.Foreign
import Verif.Api.CmdLine
import Verif.Props.CmdLine
import Verif.P2P.Pack
import Verif.Props.Pack
import Verif.P2P.TxBan
import Verif.Props.TxBan
import Verif.Props.Reorg
import Verif.Net.SendQueue
import Verif.Props.SendQueue
import Verif.Conc.Deadlock
import Verif.Props.Deadlock
import Verif.Tx.SavePos
import Verif.Props.SavePos
import Verif.Chain.CoinView
import Verif.Props.CoinView
import Verif.Conc.Stop
import Verif.Props.Stop
import Verif.Tx.PoolChain
import Verif.Props.PoolChain
import Verif.P2P.Serve
import Verif.Props.Serve
import Verif.P2P.StateRun
import Verif.Props.StateRun
