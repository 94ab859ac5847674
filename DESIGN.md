# Formal model of Grin++ in Lean 4

Source of truth: `/repo` (GrinPlusPlus, C++).  Properties: `properties.jsonl`.  Status per
property: `MANIFEST.json`.  Deliberate-bug experiments: `seeded/LOG.jsonl`.

## Layout

* `lean/Verif/Base/*` – the vocabulary: bytes, C++ outcomes, list lemmas.
* `lean/Verif/<Area>/<Unit>.lean` – model of a unit of code, each definition citing file and lines.
* `lean/Verif/<Area>/<Unit>Lemmas.lean` – helper lemmas.
* `lean/Verif/Props/<Unit>.lean` – the specifications and property theorems, each with a
  non-vacuity `example` beside it.

## Conventions

* A C++ call has one of three outcomes: `ok` (returned), `throw` (a C++ exception), `ub` (undefined
  behaviour: out-of-range read, null dereference, shift past width, signed overflow).  Undefined
  behaviour is never folded into a normal result.
* `uint64_t` values are `Nat` when the code cannot wrap under the stated bounds, and are reduced
  mod 2^64 explicitly (or `BitVec`) where the property is about wrapping.
* Hash functions (Blake2b, SHA-256, HMAC), Pedersen commitments, Schnorr and
  bulletproof verification, encryption and the OS clock are parameters (universally quantified).
  Where a theorem needs collision-freeness, injectivity of the parameter is an explicit hypothesis
  of that theorem, never an axiom.
* Where the code violates its claim, the negation is proved with a concrete witness (theorem
  named `…_violated…`) and the strongest true version as `…_partial`.

## Plan per property

| id | modelled | method |
|----|----------|--------|
| C01 | ByteBuffer cursor with 64-bit wrap in `m_index + n` | case analysis over all buffers; negation witness for wrapping lengths |
| C02 | Serializer/ByteBuffer | round-trip lemmas, induction on width |
| C03 | Serialize/Deserialize of input, output, kernel, body, tx, header, block, compact block | composition of round-trip lemmas, induction on lists |
| C04 | SerializeCycle/DeserializeProofNonces | bit-list induction |
| C05 | ProofOfWork::Deserialize raw-bits hash | negation witness; partial for zero padding |
| C06 | Fee | arithmetic; negation outside the range |
| C07 | MessageHeader, payload classes | as C03 |
| C08 | Slate binary | as C03 with presence bits |
| C09 | Armor + SimpleEncodeCheck | via C10; negation witness when checksum starts with 0 |
| C10 | Base58 big-number loops | value-of-digits invariant |
| C11 | bech32 PolyMod, base32 regrouping | linearity of PolyMod over xor; bit-list induction |
| C12 | Mnemonic | bit-list regrouping |
| C13 | KeyChainPath text, ProofMessage | decimal round trip; negations at the boundaries |
| C14 | HexUtil | induction |
| C15 | OutputDataEntity, SlateContextEntity | as C03; negation for concatenated optional tails |
| C16–C18 | Index, LeafIndex, MMRUtil | post-order layout specified recursively; strong induction on position |
| C19–C21 | AddHashes, Root, Rewind | invariant: hash file = concatenation of tree encodings of the peaks |
| C22 | PruneList | invariant over Add; counting |
| C23,C24 | AppendOnlyFile, DataFile, BitmapFile | refinement to (committed, working) |
| C25 | sequence of elementary writes with a crash point | enumeration of prefixes; negations for multi-file commits |
| C26 | Lockable/Batch writer | state machine invariant |
| C27 | difficulty functions | arithmetic bounds |
| C28–C30 | Consensus.h | arithmetic |
| C31 | Cuckatoo & variants | loop characterised against an inductive cycle specification |
| C32 | BlockHeaderValidator | decision logic outright; negation for clock units |
| C33 | TxBodyValidator | sortedness lemmas; negation for same commitment/different features |
| C34 | PerformCutThrough/Aggregate | sums over an abelian group; negation for duplicates |
| C35 | KernelSumValidator | induction over chains in an abelian group |
| C36 | TxHashSet | refinement to a map commitment → position |
| C37 | Chain/ChainStore | invariant by induction over operations |
| C38 | Block processing decision | transition system, monotonicity |
| C39 | BlockHydrator | list matching |
| C40,C41 | Pool | invariant / negation witnesses |
| C42,C43 | CoinSelection, SendSlateBuilder, OutputBuilder | list induction; negations |
| C44,C45,C46 | WalletImpl, CancelTx, ReceiveSlateBuilder | case analysis per output, histories |
| C49 | wallet metadata counters with transactions | history invariant |
| C65 | slate commitments | list reasoning |
| C66 | Slate::operator== | case analysis; negation |
| C67,C68 | locks of Connection and of opening the chain (`Conc/Locks`) | lock traces; negation |
| C69,C70 | PoWValidator, the five graph verifiers (`PoW/*`) | case analysis; negation by an invariant of the endless walk |
| C71–C73 | BlockHeaderProcessor, BlockProcessor (`Chain/Process`) | invariant over event sequences; negations for repeated hashes, unlinked batches, self-parent headers |
| C74 | TransactionPool::AddTransaction, FeeMeetsMinimum | decision logic, arithmetic |
| C47 | `Wallet.Sign`: partial and aggregate signatures over any field and module; `Tx.Sums` for the balance | algebra; induction over participants |
| C48 | `Wallet.Session`: session table, masked seed, listener counts, open databases | induction over histories; refinement to 'live' logins |
| C75 | `Wallet.Sign`, `Wallet.DB.finalize` | negation: the key as a function of two finalized slates |
| C76 | `Wallet.Amount` | decimal digits by strong induction; exact condition |
| C50, C51 | `P2P.Locator` over `Chain.Process` | induction over the loop; invariant of C73; negation for a forked locator |
| C52, C53, C54 | `P2P.Peers`: the loops over connections and over the peer table | loop invariants; exact results; negations |
| C55, C56, C57 | `P2P.Net`: rate counter, accept loop with I/O context, queues, transaction pipe | invariants over event sequences; negations |
| C61, C62 | `P2P.Sync`: 64-bit heights, handshake messages | decision logic outright; negations |
| C58, C59 | `Cache.Cache` (deps/caches), `Cache.BlockDB` over it; RocksDB transactions as finite maps | refinement to a recency list; invariant over histories |
| C60 | `Cache.Proofs`: verification over the cache of proven commitments, the library as a parameter | history invariant on commitments; negations for proofs |
| C63, C77 | `Tx.Snapshot`: all steps of the validator | loop and batch inductions; collision-freeness on the strings hashed; negations for data files |
| C64 | `Chain.Orphans` | refinement to a list of blocks; negation for the bound |
| C78 | `P2P.HeaderSync` over the header processing of `Chain.Process` and the locators; `HeaderView` is what the syncer sees | induction on rounds with a fork invariant; negations by explicit forks and traces |
| C79, C80 | `P2P.BlockSync`; `DownloadView` is what the syncer sees | loop invariants, pigeonhole on the 16 requests, history invariant; negations by traces |
| C81 | `Tx.BlockRules` | decision logic in both directions, then every accepted chain; negation for features |
| C82, C83 | `Tx.Listing`, `Wallet.Restore`; rewinding a range proof is a parameter | loop invariants over the stored state, induction over blocks; negations by explicit chains |
| C84 | `Wallet.Estimate` against `Wallet.Select.sendPlan` | case analysis over all requests; negations general and by a case |
| C85, C86 | `Wallet.Crypt`: CBC mode, padding, seed file, records; AES, scrypt, HMAC, Blake2b as parameters | induction over blocks; decrypt iff encrypt; negations |
| C87–C89 | `Codec.Json`: jsoncpp values, JsonUtil readers, slates, transactions; JSON text not modelled | exact outcome of write-then-read, iff; no undefined behaviour for any value; negations |
| C90 | `PoW.Uint128`: the two-word integers of uint128.cpp on `UInt64`, and the end of GetMaximumDifficulty | refinement to `Nat` modulo 2^128; induction over the division's rounds |
| C91 | `Codec.Base64`: cppcodec's encode/decode loops with the block and tail arithmetic; SessionToken | induction over blocks; bit identities |
| C92 | `Codec.Age`: ChaChaPoly streams, age header, recipient lines, Encrypt and Decrypt; discharges the age parameter of C09 | induction over chunks with a counter invariant; header round trip; negation witnesses |
| C93 | `P2P.Archive`: the loops that send and receive a snapshot, with the narrowing to `int` | induction over the rounds; negation witnesses |
| C94 | `P2P.Archive`: unpacking into folders as functions of paths, ProcessTxHashSet, UpdateConfirmedChain, the pipe around them | case analysis along the code, induction over file names and heights; negation witnesses |
| C95 | `Codec.Segment`: the three segment formats and the four messages around them | composition of `Reads` lemmas; negation witnesses |
| C96 | `Wallet.Keys`: master key, child keys, paths, byte-wise comparison of big numbers | equality with a separate BIP32 spec; induction over paths and bytes |
| C97 | `Wallet.Keys`: nonces, making an output, recognising it; `Wallet.Restore`: the search | composition with the round trip of proof messages (C13) and the search (C83); negation witness |
| C98 | `P2P.Dandelion`: stem phase, fluff phase, expiry, choice of the relay, over the pools of `Tx.Pool` | what each phase does to pools and messages, composed over a round |
| C99 | `P2P.BlockPipe` over `Chain.Process`: queue, batches of eight, threads in any order, waiting blocks | invariant over all steps of all schedules: confirmed prefix, waiting blocks, queue; then induction over rounds |
| C100 | `Wallet.Schema`: tables, schema updates, opening, login, slate table | case analysis per schema; simulation between histories with and without reopening, by induction |
| C101 | `Wallet.Names`: file system as directories and files, path resolution, the five handlers | invariant over histories of calls; concrete witnesses for the failures |
| C102 | `Codec.Onion`: the Base32 codec of cppcodec with padding and NUL handling, `TorAddressParser`, `SlatepackAddress` | round trip and an exact characterisation of what is accepted, by induction over the text |
| C103 | `Wallet.PayProof`: proof of `SendSlateBuilder`, `ReceiveSlateBuilder`, `FinalizeSlateBuilder`, `FindAddressIndex`, `GetRecipients`, on top of `Wallet.Sign`, `Wallet.Keys`, `Codec.Onion` | invariant over histories of the receiver's wallet; Ed25519 as a parameter with correctness and unforgeability as hypotheses where used |
| C104 | `Chain.Resync`: `ResyncChain`, `ChainState::Create`, `BlockDB::Compact`, block sums, on top of `Chain.Process` | characterisation of the loop by induction; invariants over all further events and restarts for the two violations |
| C105 | `Api.Query`: REST and JSON-RPC look-ups, base-0 `stoull`, `ChainState` getters over the tables of `Tx.TxHashSet` | text of a number by induction on its digits; look-up by output from an invariant over all applied blocks |
| C106 | `Api.Query`: `GetOutputsByHeight`, `GetBlockWithOutputs`, the query text | on top of `apply_effect` (C36) by induction over applied blocks; concrete chain for the violation |
| C107 | `Ser.Takes`: what an accepting deserializer has read, for every deserializer of `Ser.Core`, `Codec.Messages`, `Codec.Segment` | a Hoare-style predicate on parsers composed along the code, then the round trips of C03, C07, C95 |
| C108 | `Tx.KernelSigs` (`KernelSignatureValidator`, `AggSig::VerifyAggregateSignatures`), over `Wallet.Sign` and `Tx.Snapshot` | linearity of the batch sum in each coefficient; an injection of (scalar, passing vector) into all vectors gives the bound |
| C109 | `Wallet.Addresses` (`SessionManager`, `ForeignController`, `WalletManagerImpl` listeners, `TorProcess` queue and services, `Wallet::DecryptSlatepack`), over `Codec.Armor` | invariants by induction over histories: indexes bounded by the wallet's current one; in harmless histories services and sessions correspond, with every service queued, active or published |
| C110 | `Net.TorControl` (`TorControlClient::Invoke`, `TorControl`, `TorProcess` thread); Tor's answers from its control protocol | induction over the lines of an answer; the thread's states with three services form a cycle |
| C111 | `P2P.Book` (`PeerManager`, `Peer`, `PeerDB`, `Seeder::Accept`, `PeersAPI`) | invariant over histories (entries and objects correspond; the last ban of the address bounded from both sides), decision logic of the passes |
| C112 | `PoW.Sip` (siphash.h, PoW/Common.h, the endpoints of the five families) | refinement of a specification over `BitVec 64`: induction over the words of the message, the tail word and the 64 entries of a block |
| C113 | `Wallet.Coinbase` (Wallet.cpp BuildCoinbase, AggSig.cpp BuildSignature) | decision logic and algebra: the excess is the output less the reward; joined with C97, C35 and C108 |
| C114 | `Wallet.Exchange` (SendHandler.h, FinalizeTxHandler.h, CheckVersionClient.h, ReceiveTxClient.h, WalletManagerImpl.cpp, Slate.cpp) | decision logic of a request; invariant over histories of owner's and strangers' requests; violations by whole histories |
| C115 | `Net.Rpc` (RPCServer.h, RPC.h, HTTPUtil.cpp GetRequestBody) | decision logic stated outright; round trip of a call; the log of a method with secrets is determined by its name and its error |
| C116 | `Net.Settings` (Config.cpp, P2PConfig.h, DandelionConfig.h, WalletConfig.h, TorConfig.h, UpdateConfigHandler.h, GetConfigHandler.h, IPAddress.h) | invariant over the steps of an update: loading the changed JSON gives the changed settings; the JSON of the last start never changes, so by induction over updates the next start sees only the last one |
| C117 | `Net.Torrc` (TorConfig.h, UpdateTorConfigHandler.h) | refinement: the file represents one of three modes, each call is a step of the modes; induction over the calls |
| C118 | `Wallet.TxList` (WalletTx.h, WalletTxLoader.cpp, ListTxsCriteria.h, ListTxsHandler.h) | round trip for each of the four formats; refinement of the list to a predicate on records, by induction over the records |
| C119 | `Net.HttpClient` (Client.h, HTTPClient.h, HTTP.h, SOCKSClient.h) | a relation between a reader and the bytes it reads, closed under sequencing and independent of how they are cut into pieces; induction over headers, attempts and calls |
| C120 | `Net.RemoteNode` (RPCNodeClient.h, node handlers, BlockHeader.cpp JSON), `Codec.Time` (TimeUtil.h) | decision logic stated outright over the round trips of calls (C115), transactions (C88), numbers and hex; the calendar by cases on years and months, inverse for all times |
| C121 | `Wallet.Owner` (OwnerServer.cpp, the owner handlers and criteria, WalletManagerImpl.cpp), over `Wallet.Session` | noninterference: the secrets of chosen users are replaced, each handler commutes with that; induction over the requests. What a method does inside the opened wallet is a parameter |
| C122 | `Wallet.Finalize` (FinalizeSlateBuilder.cpp on whole slates, TransactionBuilder.h), over `Wallet.Sign`, `Codec.Slate`, `Tx.Pool` | the entries of the merged slate are computed (induction over coins and change), divided into the sender's and others'; then the sums the validator checks. Reading of public keys from bytes is a parameter |
| C123 | as C122, with `calcFee` of `Wallet.Select` and `feeMeetsMinimum` of `Tx.Pool` | the merged slate of an answer with one output is computed; a receiver with two outputs is the witness against the rest |
| C124 | `Wallet.Payment` (SendSlateBuilder.cpp and ReceiveSlateBuilder.cpp on whole slates, AddBlindingFactors), over `Wallet.Finalize`, `Wallet.PayProof`, `Tx.Pool` | each builder's result is computed on the entries of the slate; the sums from `finalized_balances` and their independence of the order; the body check from `body_accepts_iff`; the pool from `pool_check_iff`. Storing is left out (separate claims) |
| C125 | `Api.State` (TxHashSetAPI.cpp, ChainAPI::GetChainOutputs by ids, MMRHashUtil::GetLastLeafHashes), over `MMR.Pruned`, `Chain.TxHashSet`, `Api.Query` | induction on the number of leaves for the newest; the hash at a leaf from `append_stores_hashes` and `Stores` (which reads through the prune list); the listing from `Wallet.Restore`'s pages (C82); queries by `split_join` and the round trips of numbers and hex |
| C126 | `Wallet.Letters` (SendHandler.h, ReceiveHandler.h, FinalizeHandler.h and the criteria, as far as slatepacks go), over `Wallet.Payment`, `Codec.Armor`, `Codec.Slate`, `Wallet.Addresses` | both slates are shown well-formed (the builders keep `SlateWellFormed`), then `slate_roundtrip`, `slatepack_roundtrip_partial`, `slatepack_unreadable_partial` for the addresses tried before, `unarmor_ignores_spaces` and `honest_payment_completes` |
| C127 | `Wallet.DB` (receive, send, finalize, refresh), `Wallet.Select` | `refresh_keeps_total` computes the balances after a refresh as sums over the outputs before; `receive_effect`, `send_effect`, `finalize` and the refresh of transactions give the records |
| C128 | `Wallet.Requests` (SendCriteria.h, EstimateFeeCriteria.h, SelectionStrategyDTO.h, PostMethodDTO.h, CancelTxCriteria.h, RepostTxCriteria.h and the handlers of cancel_tx and repost_tx) | member by member, with `session_token_roundtrip`, `stoull_dec`, `json_bytes_hex`, `cancel_effect`, `repost_exact` |
| C129 | `Wallet.ListOutputs` (Wallet::GetOutputs, WalletOutputDTO.h, OutputStatus.h, ListOutputsHandler.h, WalletBalanceDTO.h) | line by line through `required_given` and its kin; the sums by induction over the outputs from `balance_partition` |
| C130 | `Chain.OpenDB` (RocksDBFactory.h, the constructor and `OpenDB` of BlockDBImpl.cpp, `GetTable` of RocksDB.h) | induction over the tables for `matchNames`, `createTables` and the interrupted creation |
| C131 | `Wallet.Exchange` (purse and its events), `Wallet.DB` | induction over the requests: each leaves the outputs or adds one without confirmations; sums over what is added |
| C132 | `Wallet.Foreign` (the handlers, models and clients of the foreign interface) over `Net.Rpc` | composition of `call_round_trip` (C115) and `slate_json_roundtrip_iff_partial` (C87); induction over the list of versions |
| C133 | `Api.CmdLine` (ParseOptions over the bundled parser, with the reordering of argv) | induction over the arguments; a decreasing measure for the end; negations |
| C134 | `P2P.Pack` (SaveSnapshot, Zipper, the files a running node writes) with the unpacking of C94 | invariant over histories of commits and starts; composition of packing and unpacking |
| C135 | `P2P.TxBan` (BlockChain::AddTransaction) between the pipe of `P2P.Net` and the pools of `Tx.Pool`, with the validator of `Tx.Sums`, `Tx.Body` | the validator's checks are characterised one by one (also that sums are accepted exactly if they balance); decision logic for one transaction; invariant over runs |
| C136 | `aggregate` of `Tx.Body`, the validator as in C135 | algebra over the merged lists, using the balance theorem of C34 |
| C137 | `Wallet/DB` (`refresh`, `refreshOutput`, `refreshTxs`) with any list of answers of the node | induction over the answers from the end: the state after the last is a function of the first state, of now, and of whether the output was always or never there; transactions by the ids; witnesses |
| C138 | `Net/SendQueue`: `SendAsync` and `HandleSent` line by line in any number of threads, writes that take any number of bytes | invariant over runs in which calls do not overlap; invariant (only calls that start no write) over every run from a stuck socket; witnesses |
| C139 | `Conc/Deadlock`: threads, shared and exclusive locks, `std::lock` of several; the locks each operation of a node takes, in order | general theorem: programs that take locks by rank are never stuck (a thread that asks for the highest rank); the operations follow such ranks; witness and invariant for the pair that does not |
| C140 | `Tx/SavePos`: `SaveOutputPositions` on the model of the chain state of C36 | loop invariant over heights and leaves; states shown to satisfy the invariants of C36 and C82; witnesses for any state and missed block |
| C141 | `Chain/CoinView`: the lookup of features while reading, for a chain state that is open or closed; the deserializers with it | refinement to the deserializers of C03 with the features of the chain state; witnesses for every block with such inputs |
| C142 | `Conc/Stop`: the threads that are joined, what each still does, `~P2PServer` and the destructors it calls; that a thread has not ended is a lock it holds | ranks of locks, a different order once all threads have ended, simulation of the shorter program; invariant of who waits for whom; witness for all other threads |
| C143 | `Tx/PoolChain`: `ReconcileBlock` as it leaves the pools, `ValidateAndAddBlock`, `HandleReorg`, `ProcessBlockInternal` with the pools outside the batch | induction over a run of next blocks, submissions and relays; refinement to the chain without pool; witnesses for every branch that loses, fails or wins |
| C144 | `P2P/Serve`: `SendTxHashSet`, `Thread_SendTxHashSet` as threads over a disk of names and files, `SendAsync` | invariant over all schedules of the threads; witnesses, for all archives, of the orders that fail |
| C145 | `P2P/StateRun`: the members of `StateSyncer` and the download count over time, on top of `IsStateSyncDue` of `P2P/Sync` | invariant over all runs; decision logic stated outright; witnesses for all peers, heights and times |

## Record per property

What is proved, under which names (all in namespace `Verif.Props`), and what is missing.

* **C01** Buffer reads never leave the buffer — *partial*. `readBytes_in_bounds_partial`, `readBE_safe`, `readBytes_ub_iff`, `readVarStr_violated`, `readVarStr_in_bounds_partial`. Fixed-width reads proved for all buffers. For attacker-chosen 64-bit lengths the claim is false: readVarStr_violated gives a buffer whose length prefix wraps the bounds check; readBytes_ub_iff characterises exactly when.
* **C02** Integer and string encodings round-trip — *proved*. `integer_roundtrip`, `integer_le_roundtrip`, `varStr_roundtrip`, `bytes_roundtrip`, `vector_roundtrip`, `integer_encoding_bijective`.
* **C03** Transactions, blocks and headers round-trip on the wire — *proved*. `input_roundtrip`, `output_roundtrip`, `outputId_roundtrip`, `kernel_roundtrip`, `body_roundtrip`, `tx_roundtrip`, `header_roundtrip`, `block_roundtrip`, `compact_roundtrip`, `kernel_unknown_features_violated`, `unsorted_body_accepted`, `kernel_message_injective`. Well-formedness is ValidKernel/ValidBody/ValidHeader; kernels with unknown features bytes are accepted by the deserializer but do not round trip (kernel_unknown_features_violated).
* **C04** Proof-of-work nonces round-trip through bit packing — *proved*. `cycle_roundtrip`, `pow_roundtrip`.
* **C05** One header content has one hash — *partial*. `pow_hash_canonical_partial`, `pow_hash_of_content_partial`, `pow_hash_violated`. False in general: padding bits of the packed cycle are hashed but not decoded (pow_hash_violated). Holds when edge_bits is a multiple of 4 or padding is zero.
* **C06** Fees survive serialization — *partial*. `fee_roundtrip_partial`, `fee_roundtrip_violated`, `fee_json_roundtrip_partial`, `fee_json_violated`. The round trip holds exactly for shift < 16 and amount < 2^40 (wire) and shift = 0 (JSON); outside it provably fails.
* **C07** Peer-to-peer messages round-trip and are length-bounded — *proved*. `payload_roundtrip`, `message_header_accepted_iff`, `message_received`, `modest_messages_fit`, `error_message_violated`, `hand_message_violated`. All message classes except the responses of the unfinished segmented sync. Error messages round-trip as payloads, but their documented maximum of zero makes every receiver refuse them.
* **C08** Slates round-trip in binary form — *proved*. `slate_roundtrip`, `slate_bad_signature_undefined`, `slate_nrd_height_lost`. Every well-formed slate; the conversions of signatures by secp256k1 are parameters.
* **C09** Slatepack armor decodes to what was encoded — *partial*. `armor_roundtrip_iff`, `armor_roundtrip_partial`, `armor_zero_checksum_violated`, `unarmor_ignores_spaces`, `slatepack_message_roundtrip`, `slatepack_roundtrip_partial`, `slatepack_age_roundtrip_partial`, `slatepack_unreadable_partial`. The armor round trip holds if and only if the first checksum byte is not zero. The message layer (plain and encrypted) round-trips; SHA-256d and the curve check are parameters; age is the parameter `AgeOps` in the general theorems and the model of the code in `slatepack_age_roundtrip_partial`.
* **C10** Base58 encoding is invertible — *proved*. `base58_encodes`, `base58_roundtrip`, `base58_injective`, `base58_plain_roundtrip`, `base58_check_roundtrip`, `base58_check_sound`.
* **C100** A stored wallet survives closing, opening and upgrading — *partial*. `upgrade_keeps_partial`, `newer_refused`, `upgrade_from_two_partial`, `upgrade_from_zero_partial`, `always_opens`, `reopening_invisible_partial`, `stored_records_kept_partial`, `latest_slate`, `other_slates_kept`, `saved_slate_loaded`, `first_session_slatepacks_lost_violated`, `version_one_locked_out_violated`. Everything but slatepacks is kept in every history of a wallet of this program, and everything once it was opened twice. Partial because the code loses the slatepacks of a new wallet's first session, and locks out wallets of schema 1.
* **C101** Wallets and their names — *partial*. `delete_needs_password`, `create_overwrites_nothing_partial`, `delete_leaves_others_partial`, `wallet_kept_partial`, `create_then_login_partial`, `nested_wallet_deleted_violated`, `name_with_separator_violated`, `hidden_name_violated`, `absolute_name_violated`, `spaces_violated`, `change_password_ignored_violated`. Proved for all histories under names that are single path components. Partial because names are not checked: with separators, leading dots or spaces the code violates it (witnesses), and the RPC that changes the password does nothing.
* **C102** Onion and slatepack addresses — *partial*. `base32_text_roundtrip`, `base32_accepts_iff`, `slatepack_key_valid`, `onion_roundtrip`, `onion_accepts_iff`, `onion_unique_partial`, `onion_version_violated`, `slatepack_prefix_violated`, `slatepack_and_onion`, `onion_not_slatepack`. The set of accepted onion texts is characterised exactly. Partial because the code does not look at the version of an onion address nor at the prefix of a slatepack address (both shown for all keys); the rest holds for all texts.
* **C103** Payment proofs — *partial*. `payment_message_injective`, `proof_required`, `proof_not_asked`, `receiver_confirms`, `foreign_proof_refused`, `proof_exchange_completes`, `proof_means_received`, `proof_and_delivery_violated`, `stored_proof_unsigned_violated`. What a proof means is proved for all histories. Partial because the code does not offer proofs for every way of sending (for slatepack addresses, the only ones delivered to, none is asked for) and does not keep the signed proof with the transaction.
* **C104** Opening the chain again and resync — *partial*. `resync_repairs`, `resync_keeps_headers_partial`, `resync_stuck_violated`, `first_start`, `restart_keeps_partial`, `genesis_twice_violated`. That headers survive a resync and a restart is proved. Partial because the code violates the rest: after a resync no block is accepted, only a snapshot helps, which is not asked for below 10080 headers; and a node opened twice before its first header gets stuck at height 1 if that header comes singly.
* **C105** Blocks and headers asked for over the node's API — *partial*. `rest_by_height`, `rest_by_hash`, `rest_by_output`, `rest_answers`, `rpc_one_parameter`, `rest_height_text_violated`, `rest_leading_zero_violated`, `rpc_conflict_violated`, `rpc_output_wins_violated`, `header_height_violated`. Proved for requests in their documented form. Partial because the code violates the rest: other text is taken for a height, contradicting parameters are not refused, and REST answers a header's height from the candidate chain while JSON-RPC and the blocks use the confirmed one.
* **C106** Outputs of a range of heights — *partial*. `outputs_by_height`, `listed_height_partial`, `outputs_query`, `outputs_above_tip_violated`, `recreated_output_violated`. Proved for ranges from 1 to one above the tip, and exactly for chains whose outputs have distinct commitments. Partial because the code violates the rest: a start further above the tip is an error, and an output that was spent is listed again under its old block if its commitment returns.
* **C107** What a node accepts it can send on — *partial*. `kernel_relayed_partial`, `tx_relayed_partial`, `header_relayed_partial`, `header_bytes_kept`, `block_relayed_partial`, `payload_relayed_partial`, `payload_bytes_kept`, `segment_bytes_kept`, `lock_height_lost_violated`, `fee_bits_violated`, `header_padding_violated`, `trailing_bytes_violated`. Proved from the bytes accepted, with no assumption that the sender was this program. Partial because the code violates the rest: unknown kernel features and fields foreign to the kind of a kernel (version 1), padding bits of the cycle, spare bits of the fee, trailing bytes.
* **C108** Kernel signatures checked together are checked one by one — *proved*. `signed_kernels_accepted`, `single_kernel_iff`, `batch_checks_each_kernel`, `unreadable_kernel_rejected`, `one_unsigned_kernel`, `invalid_batch_rejected`, `valid_terms_accepted`, `finalized_kernel_accepted`, `signed_snapshot_accepted`, `single_kernel_body`. The batch equation is that of the library's documentation (its source is not in the repository); coefficients are arbitrary except that the first is one. The bound counts coefficient vectors: the library derives them from a hash of the batch, which the model leaves open.
* **C109** An address a wallet has shown stays usable, and Tor serves the address shown — *partial*. `shown_address_opens_partial`, `new_address_fresh`, `current_address`, `tor_listener_partial`, `restored_wallet_violated`, `second_login_violated`, `logout_leaves_service_violated`, `logout_before_tor_violated`, `retry_tor_violated`. Violated by: a restored wallet (starts again at the first address), a second login after an address change, a logout after an address change or before Tor is ready, and retry_tor. tor_listener_partial covers every history without these. The round trip has the checksum restriction of C09. Wallets with the same seed under two names are excluded (distinct seeds); overflow of the index is not modelled.
* **C11** Bech32 addresses round-trip and detect their own checksum — *partial*. `bech32_accepts_only`, `slatepack_address_accepts_only`, `base32_roundtrip`, `bech32_checksum`, `bech32_single_error`, `bech32_roundtrip_partial`, `bech32_address_partial`, `slatepack_address_roundtrip`, `bech32_long_violated`, `bech32_decode_safe`. Texts longer than 90 characters are produced but refused by the decoder (bech32_long_violated); proved for everything shorter, in particular for every 32-byte slatepack address.
* **C110** Commands to Tor are answered by their own answers — *partial*. `reply_in_step`, `error_in_step`, `commands_in_step`, `add_service_partial`, `two_wallets_served`, `value_lines_violated`, `running_service_violated`, `third_service_violated`, `third_wallet_violated`. Violated: answers with a value of several lines end the request early and leave the rest unread, so with two services running no further one can be added and the next heartbeat fails; a single running service is not recognised. What Tor answers is taken from its control protocol, not from code in the repository.
* **C111** A ban lasts three hours — *partial*. `started`, `ban_partial`, `not_banned`, `pardoned`, `unban_all_partial`, `unban_all_violated`, `restart_violated`, `old_peer_violated`, `shown`, `peer_record`, `peer_request`, `ban_request`, `peer_get_changes_nothing`, `ipv6_violated`. Violated: a restart forgets every ban, the ban of a peer not heard of for a week is forgotten within the half minute, a resync leaves addresses banned that were never contacted, and IPv6 addresses cannot be named in a request. ban_partial is exact (refused before, admitted after three hours) for peers never contacted or heard of within the week less three hours.
* **C112** Nodes agree on the hashes of compact blocks and of the proof of work — *proved*. `siphash_is`, `edge_ends`, `proof_accepted`, `short_id_is`. Blake2b is a parameter (its digest gives the keys); words are read as on little-endian machines. The specification of SipHash is the published one, that of the graphs the one of the Grin reference implementation; the proof of the main network's genesis block is checked as an example.
* **C113** The coinbase a wallet builds for a miner — *proved*. `coinbase_built`, `coinbase_pays_exactly`, `coinbase_found`, `own_signature_valid`. The curve is any module over any field; that the library's commitments, keys and signatures are read as they were written, and that no amount below 2^64 commits to the point at infinity, are hypotheses (`CoinLaws`), met by a concrete instance. The random nonce is an argument.
* **C114** What the answer to a payment says, and what the wallet posts — *partial*. `slate_version_agreed`, `refused_changes_nothing`, `sent_not_posted`, `finalized_answer_partial`, `finished_transaction`, `posted_was_started`, `repost_exact`, `bad_address_violated`, `finalized_not_posted_violated`, `finalized_other_slate_violated`, `canceled_is_posted_violated`, `lost_connection_violated`. Partial because the code violates the rest: FINALIZED says neither that the node took the transaction nor that it is this payment's, a canceled payment is posted on a stranger's request, an unreadable address is taken as none, and a connection lost between two calls is used as a null pointer. Whether a handed-in slate passes the checks of finalizing is a parameter (the algebra is C47).
* **C115** Requests and answers of the JSON-RPC interfaces, and what is logged — *partial*. `every_request_answered`, `request_read`, `answer_id_partial`, `wrong_method`, `call_round_trip`, `secrets_not_logged_partial`, `malformed_request_logged_violated`, `session_token_logged_violated`, `mismatch_id_violated`. Partial because the code violates the rest: a request that is not JSON is logged in full, session tokens are logged with every request that spends, and a payment refused for the receiver's slate version is answered with the id null. JSON text is jsoncpp's, numbers with a fraction are left out.
* **C116** Settings given through the API, and those in force after a restart — *partial*. `update_in_force`, `restart_takes_last_update`, `update_survives_restart_partial`, `too_few_peers_refused`, `listed_peers`, `unlisted_peers`, `starts_with_any_file`, `file_numbers`, `earlier_update_lost_violated`, `reuse_changes_violated`, `accepted_update_wipes_violated`, `one_bad_entry_violated`, `failed_update_in_force_violated`, `other_directory_violated`, `min_above_max_violated`, `probability_cut_violated`. Partial because the code violates the rest: only the last update since the start survives a restart (proved exactly: restart_takes_last_update), an accepted max_peers beyond an int makes the next start discard the whole configuration, an update that fails can have taken effect in part, and with DATA_PATH set the file is written where no start looks. The address parser, the resolver and the hash of an address are parameters; JSON text is jsoncpp's.
* **C117** Bridges given through the API and the configuration of Tor — *partial*. `tor_call_partial`, `tor_calls_partial`, `torrc_lines`, `own_settings_lost_violated`, `bridges_pile_up_violated`, `left_out_stays_violated`, `other_bridge_stays_violated`, `bridge_writes_settings_violated`, `bridge_ends_program_violated`, `bridget_without_bridges_violated`, `other_file_system_violated`. Partial because the code violates the rest: the user's own settings are deleted when bridges are turned on, lists given twice add up, a bridge that is not one for obfs4 cannot be removed, a bridge with a line feed writes any setting or ends the program, a data directory with Bridge in its name breaks the switch, and a rename across file systems ends the program. Proved for the rest: ordinary directories and bridges, any sequence of calls.
* **C118** The transactions a wallet remembers, and list_txs — *partial*. `tx_record_read_back`, `tx_record_roundtrip_partial`, `tx_record_newer_refused`, `tx_record_settles`, `tx_record_seconds`, `tx_record_lossy_violated`, `list_txs_exact_partial`, `list_txs_outputs`, `list_txs_id_cut_violated`, `list_txs_single_id_violated`, `list_txs_far_end_violated`, `list_txs_null_violated`, `list_txs_kinds_violated`, `tx_type_names`. Partial because the code violates the rest: empty texts come back as none, an id of more than 32 bits names another transaction, an ids that is no list lists everything, an end of the range from the year 2262 on is undefined behaviour or before 1970, an empty list is null, and kinds cannot be asked for by the names the list shows.
* **C119** What the wallet asks over HTTP and over Tor, and the answers it takes — *partial*. `http_answer`, `http_calls_partial`, `http_stale_violated`, `http_no_length_violated`, `http_request`, `http_request_injective`, `tor_call`, `tor_refused_violated`. Partial because the code violates the rest: bytes after an answer stay with the client and are taken for the answer to the next call, answers without the length of a body in advance are errors, and the code of the proxy's reply is not looked at.
* **C12** Seed phrases restore the seed — *proved*. `mnemonic_roundtrip`, `mnemonic_accepts_only`, `mnemonic_spacing`, `wordList_good`, `mnemonic_roundtrip_english`, `mnemonic_long_undefined`. For the five supported lengths and any good word list, and for the English list in the code. Longer entropy (which the API does not refuse) shifts out of range: mnemonic_long_undefined.
* **C120** A wallet on a node elsewhere — *partial*. `time_text`, `remote_height`, `remote_header_partial`, `remote_tip_partial`, `remote_post_partial`, `remote_start_violated`, `remote_coins_violated`, `remote_scan_violated`, `remote_time_violated`, `remote_refused_violated`, `remote_header_overflow_violated`. Partial because the code violates the rest: no wallet starts on a node elsewhere, coins are not asked for, times of headers are read in another zone, refusals of nodes of another program are taken for success, and a header from the node may be written out of bounds.
* **C121** Strangers at the owner interface — *partial*. `owner_strangers_partial`, `owner_session_lasts_partial`, `owner_change`, `owner_login`, `owner_password_needed`, `owner_password_enough`, `owner_logout_violated`, `owner_retry_violated`. Partial because the code violates the rest: logging out takes the number of the session and not its key, and Tor is started anew before the token is looked at. A key shorter than the stored string is undefined behaviour (C48) and counts as no stranger's request.
* **C122** What a sender pays — *proved*. `sender_pays`, `others_get_the_amount`. The equation holds in any group. That values cannot be turned into blinding factors is a hypothesis of the second theorem (the generators are independent); that others know the logarithm of their excess is what the kernel signature shows, and is a hypothesis too.
* **C123** The fee of a finalized payment — *partial*. `finalized_fee_partial`, `finalized_fee_low_violated`. Proved for answers that add one output and nothing else. Violated otherwise: the fee is not compared with the weight of the finished transaction.
* **C124** An honest payment goes through — *proved*. `honest_payment_completes`, `honest_payment_admitted`. That nothing cancels (sums of keys, nonces, offsets and blinding factors are not zero; true but for a negligible part of random choices) is a hypothesis, as is the correctness of the libraries: what is signed verifies, range proofs made verify, bytes of scalars and points read back. The slates are handed over as they are; that their encodings read back is C87 and C88. Coin selection and storing are separate claims.
* **C125** The chain state over REST — *partial*. `last_hashes`, `last_kernel_hashes`, `last_answers`, `listing_pages`, `outputs_by_ids`, `listing_default_violated`. Partial because the code violates the rest: without parameters the listing starts behind the first output. Starts of 2^63 and more, for which the number of the position overflows, are left out. The answers are lists; writing them as JSON is not modelled here.
* **C126** A payment by slatepacks goes through — *partial*. `letter_arrives_partial`, `payment_by_letters_partial`, `letter_private_partial`. Proved for texts whose check sum does not begin with a zero byte, because the others cannot be read back (`armor_zero_checksum_violated` of C09): about one payment in 128 gets stuck. The hypotheses of C124 apply; fees are below 2^40. That encryption and decryption are inverse is proved for the code's own age in C92 (`age_works`).
* **C127** A payment in a block changes the balances by exactly the payment — *partial*. `refresh_keeps_total`, `payment_received`, `payment_sent_partial`, `entire_balance_sent_partial`. Proved for payments of a given amount with strategies other than ALL. A payment that leaves no change is not listed as sent (`sent_without_change_violated` of C45), which is why the last clause asks for change; sends of the entire balance are covered by `entire_balance_sent_partial`, without the listing; the strategy ALL with a given amount does not always balance (C43). The chain is assumed not to have lost coins the wallet counts (`Calm`, `Agrees`).
* **C128** An owner's request is carried out as it was put — *partial*. `send_request_roundtrip`, `request_words`, `unnamed_tx_refused`, `send_request_reads_partial`, `estimate_reads_same`, `cancel_request_partial`, `repost_request`, `amount_text_violated`, `change_outputs_violated`, `cancel_other_violated`, `cancel_unknown_violated`. Proved for numbers that fit. The code violates the rest: text is read up to the first character that is no digit and a minus wraps around (`amount_text_violated`), the number of change outputs is cut to eight bits (`change_outputs_violated`), transaction numbers are cut to 32 bits (`cancel_other_violated`), and canceling what does not exist is answered with success (`cancel_unknown_violated`).
* **C129** The outputs listed are those the wallet holds, and they add up to the balance — *partial*. `list_outputs_exact_partial`, `listed_sums`, `listed_spendable_violated`. The lines and the sums are proved; those listed as spendable add up to spendable and immature together. The last clause is violated (`listed_spendable_violated`). Of several labels only the first is listed.
* **C13** Key-chain paths round-trip as text and in range-proof messages — *partial*. `path_text_accepts_only`, `path_hex_accepts_only`, `path_text_roundtrip_partial`, `path_text_violated`, `path_text_lax`, `path_hex_roundtrip`, `proof_message_roundtrip_partial`, `proof_message_wallet`, `proof_message_violated`. Text: round trip if and only if all indices are below 2^31. Range-proof messages: exact for the paths the wallet uses, false in general.
* **C130** Opening the block database loses nothing — *proved*. `open_keeps_tables`, `open_refuses`, `open_resumes`, `tables_apart`, `block_database_opens`. RocksDB itself is modelled as a list of named tables: opening asks for all of them, creating adds one at the end (`rocksOpen`, `createTables`).
* **C131** Strangers cannot touch the coins — *partial*. `strangers_keep_coins`, `stranger_sets_total_violated`. The first sentence is proved as long as key indices do not run out (2³² of them) and unused keys give new commitments (C49 shows when they do not). The second is violated: the total counts what is not confirmed, with wraparound (`stranger_sets_total_violated`).
* **C132** Wallets that talk over Tor understand each other — *partial*. `receive_over_tor`, `finalize_over_tor`, `refused_over_tor`, `unread_changes_nothing`, `version_agreed_partial`, `version_asked`, `coinbase_request`, `version_wraps_violated`, `no_version_violated`, `coinbase_documented_violated`. The exchange of slates is proved through the JSON-RPC envelope, for slates JSON can carry (C87). Violated: versions are cut to 16 bits (`version_wraps_violated`), an empty list of versions counts as no answer (`no_version_violated`), and a request for a coinbase as documented, a list without a session's token, is always refused (`coinbase_documented_violated`). What the wallet does with a slate is a parameter here and modelled under C45-C49, C123.
* **C133** The command line — *partial*. `documented_options`, `command_line_ends_partial`, `ambiguous_option_hangs_violated`, `unknown_option_ignored_violated`, `shared_node_without_port_violated`, `shared_node_port_wraps_violated`, `shared_node_without_value_violated`. Documented arguments mean what the help text says, and reading ends unless an abbreviation fits two options (`--h`, `--he`, a value without a name): then it never does (`ambiguous_option_hangs_violated`). Also violated: unknown options are passed over (`--flonet` starts on the main network), a shared node without a port is read past the end of a vector, its port is cut to 16 bits, and `--shared-node` without a value starts a node of its own.
* **C134** A served snapshot is the chain state asked for — *partial*. `snapshot_served_partial`, `served_leaves_are_old_violated`, `without_archive_none_served_violated`, `snapshot_large_cut_violated`, `snapshot_stale_refused`. Hashes and data of files below 4 GiB arrive exactly. Violated: the unspent leaves served are always those of the archive the node itself once started from (`served_leaves_are_old_violated`), a node that had no such archive can serve none (`without_archive_none_served_violated`), and larger files are cut (`snapshot_large_cut_violated`).
* **C135** A peer is banned over a transaction only if the transaction breaks the rules — *partial*. `validator_iff`, `found_invalid_iff`, `round_bans_iff`, `banned_broke_rules`, `honest_never_banned`, `admitted_never_banned`, `unreadable_tip_bans_violated`. Holds in every run in which the confirmed tip can be read and the txhashset is in order (or absent). Violated otherwise: if the tip cannot be read from the database, or is missing, the peer of any transaction is banned (`unreadable_tip_bans_violated`). The range proofs and signatures are parameters; rules from the last hard fork on.
* **C136** Merging valid transactions gives a valid transaction — *proved*. `merged_obeys`, `validator_iff`. In any commitment group; batch verification is assumed to accept a batch exactly if it accepts each item, the sum of offsets to be right, hashes of the outputs not to collide, and no sum to be the point at infinity. `validator_iff` turns the rules into acceptance by the validator.
* **C137** The wallet follows its node's chain through reorganisations — *partial*. `shown_after_views`, `chain_now_decides_partial`, `settled_for_good`, `undone_stays_received_violated`, `reorg_unlocks_violated`, `remined_height_stale_violated`, `lower_chain_unseen_violated`. Proved for every sequence of answers from a node whose chain does not get lower: the exact state of each output afterwards, and that for confirmed outputs that are not set aside only the chain as it is now matters. The code violates the rest: a payment undone stays listed as received with the height of a block that is gone; a coin set aside is freed when its own block is undone and mined again, and is then picked for a second payment; a re-mined coinbase keeps its old height and is offered too early; while the new chain is lower nothing is updated.
* **C138** What a node sends to a peer arrives, whole, in order and once — *partial*. `sent_in_order_partial`, `all_sent_partial`, `stuck_for_good`, `send_stuck_violated`, `sent_twice_violated`, `buffer_freed_violated`. Proved if no two calls overlap and the system takes each message at once: whole, in order, once, none left. In general the code violates the property: a message pushed between the completion handler's check and its own leaves the connection mute for good (proved for every continuation); two threads that both find the queue empty make a message go out twice; and whenever the system takes only part of a message the rest is read from a buffer that has been freed.
* **C139** The threads of a node never block each other for good — *partial*. `ordered_never_stuck`, `node_never_stuck_partial`, `stuck_stays`, `node_stuck_violated`, `whole_node_stuck_violated`. Proved for any locks with ranks, any number of threads and every schedule (ordered_never_stuck), and for all modelled operations of a node except closing a connection that was found dead. With that, the code violates the property: the thread that closes connections holds the list and waits for the connection, the one that handles a message of it holds the connection and waits for the list; proved also that then every thread that needs the list hangs.
* **C14** Hex encoding round-trips — *partial*. `hex_encoding`, `hex_roundtrip`, `hex_valid_iff`, `hex_valid_decodes_partial`, `hex_valid_odd_violated`, `hex_valid_odd_throws`, `hex_decode_sound`. Strings of odd length pass IsValidHex but FromHex throws (hex_valid_odd_violated).
* **C140** After taking over a snapshot a node knows exactly the outputs of the snapshot — *partial*. `positions_saved`, `snapshot_taken_over_partial`, `spent_output_kept_violated`, `spent_output_kept_case_violated`, `other_output_spent_violated`. Proved for every database: each unspent output of the snapshot gets its place and the height of its block, and other entries stay; so with an empty table the state is one to which all theorems of C36, C82 apply. With entries from before the snapshot the code violates the property (they are never removed): proved for every state and every block missed, and cases. Assumed: no two unspent outputs of the snapshot share a commitment.
* **C141** A block or transaction sent at protocol version 3 is read as it was meant — *partial*. `view_right`, `block_view_total`, `block_received_partial`, `orphan_features_violated`, `closed_crash_violated`. Proved with the chain state open: the lookup never fails and gives the features of the unspent output, and a block whose inputs are unspent here is read as sent. The code violates the rest: a block that arrives before its parent and spends a coinbase of it gets plain inputs and is then stored and sent on changed; and while a snapshot is taken over, any block with a known input makes the node dereference a null pointer.
* **C142** A node that is asked to stop stops — *partial*. `ordered_finishes`, `threads_end_first`, `node_stops_partial`, `stop_hangs_violated`. Proved: all threads have ended before connections are closed, always; and the node can always go on until it has stopped, unless it is just about to accept a connection or a connection is being closed because it was found dead (C139). The code violates the rest: the destructor of the seeder waits, holding the mutex that the handler for new connections takes first, for the thread that runs the handler. Detached threads that set up a connection are not joined and not modelled; nor are the wallet and the HTTP servers.
* **C143** A payment that waits in the pool stays until it is on the chain or can no longer be — *partial*. `waiting_until_settled_partial`, `unused_block_keeps_pool`, `refused_block_keeps_pool`, `chain_ignores_pool`, `losing_fork_drops_violated`, `failing_fork_drops_violated`, `undone_not_returned_violated`, `losing_fork_case_violated`, `failing_fork_case_violated`, `undone_case_violated`. Proved: through any sequence of next blocks, submissions and relays a transaction leaves the public pool only for the reasons named, and the chain grows by exactly these blocks; blocks that are known, kept for later or refused as next block leave the pool as it is; the chain does not depend on the pool while the pool raises no error. The code violates the rest: the pool is changed while a branch is tried and is not changed back when the branch is dropped, and the transactions of undone blocks are not put back. Hashes of transactions are taken as different; expiry from the stem pool is C41.
* **C144** Peers that ask for snapshots at the same time each get theirs, and a refused request does not end the conversation — *partial*. `served_apart_partial`, `same_header_cut_violated`, `same_header_lost_violated`, `same_header_zero_violated`, `refused_request_silences_violated`. Proved, for every order of the threads: requests for different headers do not disturb each other, each peer is told the right size, gets the whole blocks of its archive and is answered again. The code violates the rest: threads for the same header share one file name, and a request that fails leaves the connection mute. The bytes after the last whole block are C93, what is in the archive C134. Not modelled: failures of the socket, stopping the node meanwhile, an archive seen half written (it is empty, then complete), file systems on which an open file cannot be removed.
* **C145** A node that needs the state asks one peer after another, and bans only those that failed it — *partial*. `state_bans_partial`, `state_asked_when`, `failed_attempt_next_asked`, `silent_peer_replaced_partial`, `helpful_peer_banned_violated`, `second_silent_peer_waited_for_violated`, `no_peer_then_waits_violated`. Proved: in every run only peers that were asked, or whose archive failed, are banned, and the peer waited for is the one asked last; exactly when a peer is banned and the next asked; after a failed attempt the next peer is asked, and so is one after ten seconds of silence as long as no bytes have come in the run. The code violates the rest: a peer that delivered is banned at the next sync of the same process, and the count of bytes of a broken attempt is taken for the next peer's, so that this peer is waited for two hours. Which peer has most work and the header asked for (C61) are parameters; the events of a run come in any order, including orders the network does not produce.
* **C15** Wallet database records round-trip — *partial*. `output_record_format`, `output_record_read_back`, `output_record_roundtrip_partial`, `output_record_hardened_violated`, `output_record_lossy_violated`, `slate_context_roundtrip_partial`, `slate_context_violated`. What is read back is characterised exactly; false for hardened paths, present zeros, several labels, and contexts whose records lack a transaction id.
* **C16** MMR index arithmetic matches the tree — *proved*. `height_correct`, `node_height_unique`, `leaf_iff_no_children`, `family_correct`, `parent_sibling_correct`, `index_no_wrap`.
* **C17** Leaf numbers and MMR positions correspond one to one — *proved*. `leafPos_iff_leaf`, `leafPos_increasing`, `leafPos_counts`, `leafIndex_roundtrip`, `leafIndex_roundtrip'`.
* **C18** Peaks partition the MMR — *proved*. `peaks_tile`, `peaks_invalid`.
* **C19** Appending to an MMR stores every node hash at its position — *proved*. `append_stores_hashes`, `append_is_extension`, `kernel_data`. Hash function is a parameter.
* **C20** The MMR root commits to the leaves and their order — *proved*. `root_correct`, `root_commits`, `root_historical`. root_commits assumes collision freeness only on the strings hashed by the two lists.
* **C21** Rewinding an MMR undoes appends exactly — *proved*. `kernel_rewind`, `header_rewind`, `kernel_rewind_forward_refused`.
* **C22** Pruned-node bookkeeping finds the right hash — *proved*. `prune_history`, `prune_shift`, `pruned_append`, `pruned_remove`, `pruned_rewind`, `pruned_root`, `pruned_get`, `stores_compacted`. prune_history/prune_shift range over all histories of Add and Flush on leaves; the pruned_* theorems show that a range with compacted files behaves as the full one under append, remove, rewind, root and reads.
* **C23** Append-only files behave as committed list plus working list — *partial*. `append_only_refines_partial`, `straddling_read_violated`, `data_file_refines`. Full refinement for record files (DataFile, the only use the code makes of reads): data_file_refines over all histories. For the byte-level AppendOnlyFile, reads that straddle disk and buffer are wrong (straddling_read_violated); all other reads proved.
* **C24** Bitmap files behave as committed set plus working set — *partial*. `bitmap_refines_partial`, `bitmap_export`, `bitmap_index_violated`, `bitmap_index_always_false`. IsSet, durability, rollback, rewind proved over all histories; operator[] is always false (bitmap_index_violated).
* **C25** A crash during commit loses at most the uncommitted change — *partial*. `data_crash_partial`, `append_crash_keeps`, `data_crash_violated`, `record_crash_violated`, `flush_effects_complete`, `bitmap_crash_partial`, `bitmap_crash_violated`, `safe_write_crash_partial`, `safe_write_crash_violated`, `state_crash_order_partial`, `state_crash_violated`. The claim as stated is false at every level (four witnesses); what holds at every crash point is proved beside each.
* **C26** A batch either commits as a whole or rolls back as a whole — *partial*. `batch_session_correct`, `batch_dropped`, `batch_committed`, `write_session_persists`, `composite_session_correct`, `wallet_session_partial`, `wallet_batch_violated`, `txhashset_replacement_violated`. Proved for all batchable classes and the composite chain state, for arbitrary call sequences; false for changes made through a wallet batch after its commit, and for replacing the output set inside a batch.
* **C27** Difficulty never collapses or explodes in one step — *partial*. `dma_minimum`, `dma_difficulty_partial`, `dma_step_partial`, `wtema_difficulty_partial`, `wtema_step_partial`, `wtema_collapse_violated`, `wtema_overflow_violated`, `dma_scaling_violated`. Bounds and exact values while the 64-bit products do not wrap; false otherwise, and false when a parent is dated far ahead.
* **C28** Exactly one header version is valid at each height — *proved*. `header_version_spec`, `header_version_mono`, `header_version_unique`. All three environments.
* **C29** Coinbase outputs cannot be spent before maturity — *proved*. `maturity_rule`, `apply_accepts_iff`, `pool_check_iff`, `wallet_mature`, `wallet_mature_iff`. Blocks, the pool's check and the wallet's selection rule.
* **C30** Weight limits bound the size of blocks and transactions — *proved*. `block_weight`, `current_weight_rule`, `transaction_weight`, `old_weight_rule`. For every body that fits in memory (counts below 2^60).
* **C31** Cuckoo-cycle verification accepts exactly the cycles — *proved*. `cuckatoo_accepts_iff`, `cuckaroo_accepts_iff`, `cuckarooz_accepts_iff`, `cuckaroom_accepts_iff`, `cuckarood_accepts_iff`. All five verifiers; the function from an edge index to its two end points is a parameter here; C112 gives it (SipHash).
* **C32** Accepted headers extend their parent and cannot come from the far future — *partial*. `header_accepts_iff`, `maximum_difficulty_spec`, `header_time_partial`, `future_header_violated`, `header_sizes_violated`. Acceptance characterised exactly; the limit on future times is compared with clock ticks instead of seconds, and the MMR sizes are not compared with the parent's.
* **C33** Blocks with unsorted, duplicate or uncut items are refused — *partial*. `body_accepts_iff`, `body_sorted_partial`, `duplicate_kernel_violated`, `double_spend_violated`, `duplicate_output_commitment_violated`. Acceptance characterised exactly. The order check allows equal neighbours, so duplicate kernels, repeated inputs and repeated output commitments pass.
* **C34** Cut-through and aggregation preserve the balance — *partial*. `cut_through_balance`, `cut_through_disjoint`, `aggregate_partial`, `aggregate_balance_violated`. Proved when no commitment occurs twice among the inputs or twice among the outputs; false otherwise.
* **C35** No block creates money — *proved*. `kernel_sums_sound`, `transaction_balances`, `coinbase_balances`, `supply_apply`, `money_supply`, `rewound_books`, `genesis_books`, `snapshot_supply`. Any commutative group; serialization of points is a parameter with the law parse (ser g) = g. Range proofs and signatures are not part of it.
* **C36** Unspent-output state: no double spend, apply and rewind are inverse — *partial*. `apply_accepts_iff`, `apply_answers`, `apply_effect`, `coin_sound`, `rewind_restores`, `reachable_holds`, `roots_check`, `pool_check_mineable`, `duplicate_input_violated`, `unlisted_outputs_violated`. Apply and rewind proved for all states and all lists of blocks; false for a block naming one output twice in a row (null dereference), and the sizes in the header are not compared with those reached, so outputs can be added that no root covers.
* **C37** The chain index is a path of consecutive headers — *proved*. `chain_store_refines`, `last_agree_spec`, `linked_agree_iff`, `reorg_copies`. Any sequence of operations incl. commit, rollback and restart from the files; tips below 2^64.
* **C38** The confirmed tip never loses total work — *partial*. `work_monotone_partial`, `heavier_branch_adopted`, `next_block_adopted`, `fake_work_violated`, `fake_work_case_violated`, `unlinked_batch_violated`, `waiting_block_violated`, `deep_block_refused`. Proved for unique header hashes and linked header batches. False otherwise: the hash covers only the proof of work, batches are not checked for links; and a waiting block with more work is forgotten when its parent arrives on a branch without more work.
* **C39** Compact blocks rebuild the original block or nothing — *partial*. `hydrate_sound`, `hydrate_some_iff`, `hydrate_original`, `overlapping_pool_violated`, `short_id`. Soundness for every compact block and pool; the original block comes back when the pool holds its transactions and no other pool transaction matches an id. Matching kernels are counted rather than matched ids, so overlapping pool transactions yield a different block instead of nothing.
* **C40** The transaction pool stays jointly mineable — *partial*. `selection_joint`, `reconciled_joint_partial`, `stem_offer`, `fluff_offer`, `joint_mineable`, `conflict_admitted_violated`, `conflict_stops_relay_violated`. Holds after each block; a submission is only checked by itself, so conflicting transactions coexist until the next block and stop all stem and fluff runs.
* **C41** A stemmed transaction is fluffed only after its embargo — *partial*. `expired_iff_partial`, `stored_time`, `stem_expired_at_once_violated`, `new_stem_expired_violated`. The stored time is always 0, so every stem transaction is reported expired at once.
* **C42** Coin selection covers amount plus fee — *partial*. `selection_sound_partial`, `fewest_optimal`, `smallest_prefix`, `custom_exact`, `smallest_misses`, `all_unchecked_violated`, `all_free_violated`. Sound for three strategies, and exact for 'fewest' and 'custom'; 'smallest' may fail where a selection exists; 'all' never looks at what the coins are worth.
* **C43** A send balances to the last unit — *partial*. `send_balances_partial`, `change_split`, `send_entire_partial`, `send_all_violated`, `send_entire_violated`, `send_255_violated`. Holds for the selecting strategies and fewer than 255 change outputs; wraps for strategy 'all', for an entire balance below the fee, and for 255 change outputs.
* **C44** Wallet balance accounts for every output exactly once — *partial*. `balance_partition`, `spendable_is_available`, `available_mature`, `refresh_matches_chain`, `behind_node_violated`, `stale_height_violated`. The classification is exact for every stored list and agrees with the node's chain after a refresh; an output moved to a later block keeps its first height, and a node that is behind yields an empty summary.
* **C45** Cancelling a transaction releases exactly what it locked — *partial*. `send_effect`, `send_moves_balance`, `cancel_effect`, `cancel_refused`, `send_cancel_restores`, `sent_without_change_violated`, `cancel_after_payment_violated`, `cancel_releases_other_violated`. Effects of send and cancel on every output and record, and the round trip; but a send without change is never seen as confirmed and can be canceled afterwards, and finalizing a canceled send lets its cancel release another send's coin.
* **C46** A slate is received at most once — *partial*. `receive_once_partial`, `receive_own_slate_violated`, `receive_after_cancel_violated`. By induction over histories without cancels and own sends of the slate; both exceptions are real.
* **C47** Finalizing yields a valid aggregate signature over the agreed excess — *proved*. `partial_verifies`, `aggregate_valid`, `exchange_completes`, `finalize_sound`, `finalized_balances`. Any field, any module, any challenge function; any number of participants for the aggregate. Sums that cancel, of negligible probability for random keys, are excluded by explicit hypotheses.
* **C48** A session token opens only its own wallet and only while logged in — *partial*. `session_iff`, `opens_iff`, `issued_opens`, `dead_refused`, `forged_key_partial`, `deletable_iff_partial`, `short_key_violated`, `forged_key_violated`, `longer_key_violated`, `logout_forged_violated`, `stale_listener_violated`, `failed_login_violated`. The lifetime of sessions holds for all histories. A forged key is refused only by a four-byte checksum, a short key is undefined behaviour, trailing bytes are ignored, logging out ignores the key.
* **C49** Key indices and transaction ids are never reused — *partial*. `paths_distinct_partial`, `transactions_kept_partial`, `restored_path_violated`, `tx_id_wrap_violated`. For all histories, failing operations included, up to 2^32 allocations; restored outputs do not advance the counter of key paths.
* **C50** Block locators start at the tip, end at genesis and stay short — *proved*. `locator_heights`. All heights. Also bounds how far back the search for the last common header goes.
* **C51** Headers served to a peer connect to a header it has — *partial*. `served_headers_partial`, `served_fork_violated`, `candidateHeader_iff`. Holds when the first known locator hash is on the candidate chain. The code answers from any stored header, and then the headers do not connect.
* **C52** Every dead connection is pruned — *partial*. `prune_partial`, `prune_passes_partial`, `prune_neighbour_violated`, `prune_shutdown_violated`. A pass keeps every active connection and removes at least half of each run of inactive ones; n passes remove all of fewer than 2^n. The one after a removed one is skipped; a shutdown closes every other connection only.
* **C53** A banned peer does not hide the others — *partial*. `peers_found`, `peers_found_partial`, `new_peer_partial`, `banned_hides_violated`, `peers_shared`. Exact result for every table without a banned peer in the way; a banned peer ends the search.
* **C54** The most-work peer is chosen — *proved*. `most_work`. All connection lists and all random choices.
* **C55** Rate counters count exactly the last minute — *proved*. `rate_exact`, `rate_clock_violated`. For every sequence with a nondecreasing clock, as the property says; `rate_clock_violated` shows the need for that.
* **C56** The inbound listener keeps listening — *partial*. `listening_partial`, `deaf_violated`, `stopped_violated`, `hang_up_violated`, `opened_welcome`. Holds for arrivals that are accepted, refused for being full, or banned. An error or a blocked or not allowed address ends listening; a peer that hangs up early ends the program.
* **C57** Queues are FIFO and unique where promised — *proved*. `queue_fifo`, `queue_unique`, `pipe_moves`, `pipe_round`, `pipe_bans`. All sequences of calls; the element behind a failing one is reached.
* **C58** The header cache always agrees with the database — *proved*. `header_read`, `late_add_violated`. All histories in which headers are added to a batch before it ends. `late_add_violated` shows that this condition, which the callers meet, is needed.
* **C59** The LRU cache is a bounded map evicting the least recently used key — *proved*. `lru_cache`, `fifo_cache`, `lru_evicts`. All histories and capacities; also for the first-in first-out policy of the same library.
* **C60** An accepted range proof was verified for that very output — *partial*. `proofs_accepted_partial`, `proofs_verified_partial`, `other_proof_violated`, `no_proofs_violated`, `short_proof_violated`. Each accepted commitment had a valid proof in this or an earlier call. It need not be the proof accepted now; without any proof, or with a proof shorter than the first, memory is read outside its bounds.
* **C61** State sync is requested exactly when blocks are beyond the horizon — *partial*. `state_sync_partial`, `short_chain_violated`, `failed_sync_violated`, `state_sync_again`. Exact for chains of 10080 headers or more. On shorter chains the subtraction wraps and the node never syncs blocks.
* **C62** Handshake settles on a version both sides speak and never connects to self — *partial*. `inbound_partial`, `outbound_partial`, `exchange_partial`, `exchange_version`, `other_genesis_violated`, `outbound_connected_violated`. Exact success conditions of both sides. The genesis hash is not compared by either side.
* **C63** Snapshot validation checks every output and kernel — *proved*. `snapshot_validated`, `snapshot_kernel_hashes`, `snapshot_supply`. All snapshots. `snapshot_kernel_hashes` says what the roots imply for the stored kernel hashes, `snapshot_supply` (C35) what the sums imply for the amount of money.
* **C64** Orphan blocks are found again by height and hash and the pool is bounded — *partial*. `orphan_pool`, `orphan_header`, `unbounded_orphans_violated`, `first_body_violated`. Exact contents of the pool after every history, nothing is ever evicted; but there is no limit, and a second block with the same header is dropped.
* **C65** A slate never lists a commitment twice — *proved*. `slate_commitments_distinct`, `slate_additions_kept`.
* **C66** Slates compare equal exactly when they are the same — *partial*. `slate_equality_partial`, `slate_equality_violated`, `slate_equality_irreflexive_violated`. operator== neither compares the block version nor the feature arguments.
* **C67** A malformed message ends the connection, not the node's thread — *partial*. `message_handling_ends_partial`, `malformed_message_violated`, `empty_ping_violated`. False for malformed messages: the connection's mutex is locked twice.
* **C68** Opening the chain finishes — *partial*. `startup_ends_partial`, `startup_violated`. False when the flushed header is below the horizon: the mutex of the tx hash set is locked twice.
* **C69** Only permitted graph sizes count, and any graph size is handled — *partial*. `pow_answers_partial`, `secondary_retired`, `small_graph_violated`, `small_graph_header_violated`, `edge_bits_violated`. Below 24 edge bits the validator's shift is undefined behaviour; sizes 24 to 28 and 30 are accepted.
* **C70** Verification of a proof of work ends with an answer — *partial*. `cuckatoo_answers`, `cuckaroo_answers`, `cuckarooz_answers`, `cuckaroom_answers`, `cuckarood_hangs_violated`. Four verifiers always answer; Cuckarood does not end when two edges join the same nodes in opposite directions and edge 0 leads into them.
* **C71** Processing a received header ends — *partial*. `header_loop_violated`. False: a header naming itself as parent, sent twice, makes the search for ancestors run forever with the chain locked.
* **C72** A block is checked against the header that carries the work — *partial*. `stored_header_partial`, `body_swap_violated`, `body_swap_case_violated`. Proved for unique hashes; false because the hash of a header covers only its proof of work and known headers are not compared.
* **C73** The header MMR belongs to a linked candidate chain — *partial*. `candidate_chain_partial`, `candidate_unlinked_violated`. Proved for unique hashes and linked batches; the links inside a batch are never checked.
* **C74** The pool admits a transaction exactly by its rules — *proved*. `admitted_iff`, `admitted_no_coinbase`, `admitted_effect`, `validator_ok`, `admitted_pays`. Decision logic of admission, and the fee bound under the node's rules from the last version change on.
* **C75** A signing secret is used for one signature only — *partial*. `nonce_reused_violated`, `finalize_again_violated`, `contexts_kept`, `send_again_refused`. Fails: finalizing does not consume the stored secrets, and is offered to the counterparty; two responses reveal the sender's key.
* **C76** A displayed balance is the balance — *partial*. `format_reads_partial`, `format_injective`, `format_violated`. Right exactly if the fraction is zero or has nine digits.
* **C77** A validated snapshot holds the outputs and kernels the header commits to — *partial*. `snapshot_kernel_hashes`, `snapshot_data_violated`, `snapshot_swapped_violated`, `snapshot_extra_violated`, `snapshot_short_violated`. Proved for the hashes of kernels only. The data files are never hashed, so other data with valid sums, proofs and signatures is accepted.
* **C78** Header synchronization reaches the heavier chain, and bans only peers that do not answer — *partial*. `header_sync_completes_partial`, `reachable_chain`, `header_sync_stuck_violated`, `header_sync_stuck_case_violated`, `header_ban_partial`, `header_ban_after_progress`, `header_ban_once_violated`, `header_ban_honest_violated`. Proved when the first 128 headers above the fork already outweigh the own chain; otherwise the node never changes over. A banned peer was asked, but not always twice.
* **C79** The blocks needed are the next ones of the header chain — *proved*. `blocks_needed`, `blocks_needed_prefix`. All chains, limits and orphans.
* **C80** Blocks are requested evenly, and only peers that stay silent are banned — *partial*. `block_requests`, `block_missing_asked`, `block_quiet`, `block_forgotten`, `block_ban_partial`, `block_ban_again_violated`, `block_ban_disconnected_violated`. The requests are proved for every call. The first ban follows a request of more than five seconds ago; later bans, and bans of peers that disconnected, need not.
* **C81** Blocks on the chain obey the rules for a block alone — *partial*. `consistent_block`, `consistent_block_accepted`, `chain_rules`, `coinbase_features_violated`. Weight, locks, cut-through and coinbase for all blocks and chains, in both directions. Kernels of undefined kinds pass as coinbase kernels.
* **C82** A node lists exactly the unspent outputs — *proved*. `outputs_listed`, `reachable_indexed`, `listed_iff_coin`. `outputs_listed` gives the answer in full for every correctly stored state; `reachable_indexed` shows that every chain of blocks leads to such a state; `listed_iff_coin` ties the list to lookups by commitment. Leaf numbers of 2^63 and more are not modelled.
* **C83** Restoring a wallet finds its outputs — *partial*. `restore_finds_partial`, `restore_after_reorg_violated`, `restore_discards_violated`, `restore_after_reorg_case_violated`, `restore_last_spent_violated`. `restore_finds_partial` settles the search while the chain stands still and the last output is unspent, for any number of batches. Violated after a reorganisation: outputs at leaf numbers up to the saved index are never looked at, and an empty later answer discards everything found. The rewinding of range proofs is a parameter.
* **C84** The fee shown is the fee paid — *partial*. `estimate_is_paid_partial`, `fee_without_change_violated`, `fee_without_change_case_violated`, `estimate_immature_violated`, `estimate_below_fee_violated`. `estimate_is_paid_partial`: with at least one change output (as a byte) or the entire balance, and no coin waiting for confirmations, estimate and send agree on everything. Violated with an amount and no change output (all that exceeds the amount is paid as fee), for coins waiting for confirmations, and for balances below the fee. The refresh before a send is C44's; the two are compared on the same table of outputs.
* **C85** The password opens the wallet, and nothing else does — *partial*. `seed_opens_iff`, `seed_file_opens`, `other_password`, `password_changed`, `password_change_stop_partial`, `password_change_stop_violated`, `seed_file_safe`, `written_length`, `short_seed_file_violated`, `cbc_decrypts_iff`. CBC with padding is proved to decrypt exactly what it encrypts, for every pair of inverse block functions; `seed_opens_iff` and `other_password` give the exact condition under which a password opens a file. Violated for files of fewer than 48 encrypted bytes (undefined behaviour) and for a stop between removing the old seed file and renaming the new one. AES, scrypt and HMAC are parameters; JSON text and lengths beyond `int` are not modelled.
* **C86** Encrypted records of the wallet database come back unchanged, altered ones are refused — *partial*. `record_roundtrip`, `record_decrypts_iff`, `altered_record_violated`. `record_roundtrip` and `record_decrypts_iff` hold for every block cipher. There is no authentication: `altered_record_violated` shows that for every record and every difference in its first 16 bytes there is an alteration of the stored initial vector that is read as the changed record.
* **C87** A slate sent as JSON arrives as it was — *partial*. `slate_json_roundtrip_iff_partial`, `slate_json_outcome`, `slate_from_json_no_ub`, `slate_json_violated_lock_height`, `slate_json_violated_fee`, `uuid_text_roundtrip`. The exact condition for the round trip is proved, over jsoncpp values. Violated: `feat_args` is never read, so a lock height is lost and the slate read cannot be written again; a fee with a shift is read as a bare number. The text of JSON (jsoncpp) is not modelled.
* **C88** A transaction sent as JSON arrives as it was — *partial*. `tx_json_roundtrip_iff_partial`, `kernel_json_outcome`, `tx_from_json_no_ub_partial`, `tx_json_violated_fee`, `kernel_json_violated_nrd`, `tx_json_violated_empty`, `kernel_from_json_violated_ub`. The exact condition for the round trip is proved. Violated for fees with a shift, for coinbase kernels and kernels that must not be repeated, for empty lists, and (undefined behaviour) for kernels with empty features or with signatures that do not parse. The conversion of signatures (secp256k1) is a parameter.
* **C89** Numbers in requests are read as written or refused — *partial*. `json_number_read`, `json_number_refused`, `json_number_violated`. Violated: a negative number in quotes is read modulo 2^64, characters after the digits are ignored, and eight-bit fields keep the low byte of larger numbers.
* **C90** The 128-bit arithmetic behind the difficulty is exact — *proved*. `Verif.PoW.U128.u128_add`, `Verif.PoW.U128.u128_sub`, `Verif.PoW.U128.u128_neg`, `Verif.PoW.U128.u128_order`, `Verif.PoW.U128.u128_shl`, `Verif.PoW.U128.u128_shr`, `Verif.PoW.U128.u128_mul`, `Verif.PoW.U128.u128_bits`, `Verif.PoW.U128.u128_divmod`, `Verif.PoW.U128.u128_div_mod`, `Verif.PoW.U128.u128_text`, `Verif.PoW.U128.u128_max_difficulty`, `Verif.PoW.U128.u128_max_difficulty_header`. The templates for signed operands (which would not extend the sign) are not modelled; no caller uses them.
* **C91** Base64 text and session tokens read back as written — *proved*. `base64_roundtrip`, `base64_text`, `base64_refuses`, `session_token_roundtrip`, `session_token_injective`, `session_token_text_not_unique`. The converse is not claimed: text after a NUL and the spare bits of the last character are ignored, so two texts can name one token (`session_token_text_not_unique`).
* **C92** An encrypted slatepack is read by its recipients only, and only as it was written — *partial*. `age_stream_encrypt`, `age_stream_authentic`, `age_stream_roundtrip`, `age_roundtrip_partial`, `age_works`, `slatepack_age_roundtrip_partial`, `age_decrypt_authentic`, `age_decrypt_other`, `age_decrypt_defined_partial`, `age_decrypt_defined_violated`, `age_header_unchecked_violated`, `age_empty_violated`. The ChaCha20 key stream, Poly1305, X25519, HKDF and HMAC are parameters; that boxes for other recipients do not open is the hypothesis `BoxesSeparate`. Violated: the header's code is never checked, the empty text cannot be decrypted, and a last chunk shorter than a tag leaves the buffer.
* **C93** A snapshot of the chain state arrives complete or not at all — *partial*. `archive_received_exact`, `archive_received_partial`, `archive_large_violated`, `archive_never_ends_violated`, `snapshot_sent`, `snapshot_transfer_partial`, `snapshot_transfer_violated`, `archive_one_at_a_time`. Violated: a served file whose size is not a multiple of 131072 is cut off, a size of 2^31 bytes or more cannot be downloaded, and a size that is a multiple of 2^32 never ends. Shutting down and errors of the disk are not modelled.
* **C94** A received snapshot replaces the chain state only if it is valid, and otherwise leaves the node as it was — *partial*. `archive_confined`, `archive_extracted`, `archive_content`, `snapshot_accepted_partial`, `snapshot_refused_partial`, `snapshot_refused_violated`, `snapshot_wipes_violated`, `snapshot_unsolicited_violated`, `snapshot_below_violated`, `snapshot_defined_partial`, `snapshot_defined_violated`. Whether the unpacked files validate is a parameter (C63, C77); the library that reads archives and errors of the file system are not modelled. Violated: a refused snapshot leaves the chain state closed and may remove its files, nobody needs to have asked for it, and a header below the confirmed blocks or above the candidate chain is mishandled.
* **C95** Segments of the chain state survive the wire and cost no more memory than they carry — *partial*. `segment_message_roundtrip`, `segment_bytes_kept`, `segment_memory_violated`, `segment_positions_violated`. Violated: the vector of positions is constructed with the count named in the message before anything is checked; a list of 65536 or more positions of a bitmap block loses its count.
* **C96** Keys derived from the seed follow BIP32 — *partial*. `master_key_standard`, `child_key_standard_partial`, `derived_key_valid`, `derive_hierarchical`, `child_data_injective`, `sibling_keys_differ`. Where the left half of the HMAC is zero or at least the group order, which BIP32 treats specially, the code leaves the decision to the library's addition of secrets (chance below 2^-127). HMAC, point multiplication and addition of secrets are parameters.
* **C97** A wallet restored from the seed recognises its outputs and can spend them — *partial*. `own_output_found`, `view_by_public_key`, `old_output_found`, `foreign_output_ignored`, `restore_from_seed_partial`, `empty_path_violated`. The range proof library is a parameter with the laws `KeyLaws`. Partial as C83 is: the chain must stand still during the search. Violated for a block reward with a key identifier without indices.
* **C98** The relay thread keeps stem transactions on the stem until their embargo ends — *partial*. `stem_one_relay`, `relay_kept`, `broadcast_in_pool`, `embargo_partial`, `stem_not_private_violated`, `failed_aggregate_stops_embargo_violated`, `failed_stem_violated`. Violated: every stem transaction is broadcast in the round in which it is stemmed (the stored time is zero, C41); a failing aggregation ends the round before expired transactions are looked at; after a failed stem the public pool gets the aggregate and its parts.
* **C99** Blocks may arrive in any order — *partial*. `any_order_converges`, `rounds_converge`, `wrong_peer_banned_violated`. Convergence is proved for all schedules. Partial because of bans: a peer whose good block connects through a bad waiting block is banned in place of the sender of the bad one.

## Findings

Defects of the code that the model exposes; each is proved as a theorem with a concrete witness.

* C01 `readVarStr_violated`: a 64-bit length prefix wraps the bounds check of `ByteBuffer`.
* C03 `kernel_unknown_features_violated`: unknown kernel features are accepted on the wire but do not round trip; `unsorted_body_accepted`: unsorted bodies are silently sorted.
* C05 `pow_hash_violated`: padding bits of the packed cycle are hashed but not decoded, so one header content has several hashes.
* C06 `fee_roundtrip_violated`, `fee_json_violated`: fee shift ≥ 16, amount ≥ 2^40 or JSON with shift ≠ 0 are lost.
* C23 `straddling_read_violated`: a byte read across the disk/buffer boundary returns stale bytes or runs past the file.
* C24 `bitmap_index_violated`: `BitmapFile::operator[]` is always false (`s_true{ false }`).
* C25 `data_crash_violated`, `record_crash_violated`, `bitmap_crash_violated`, `safe_write_crash_violated`, `state_crash_violated`: no commit is atomic; in particular `SafeWriteToFile` removes the old file before renaming the new one, and the chain files are written before the database commits.
* C26 `wallet_batch_violated`: a wallet batch used after its commit writes through; `txhashset_replacement_violated`: replacing the output set is not rolled back.
* C09 `armor_zero_checksum_violated`: `SimpleEncodeCheck` drops leading zero bytes, so a slatepack whose checksum begins with a zero byte (1 in 256) cannot be unpacked.
* C11 `bech32_long_violated`: prefixes or data giving more than 90 characters are encoded but refused by the decoder.
* C14 `hex_valid_odd_violated`: `IsValidHex` accepts strings of odd length that `FromHex` refuses.
* C12 `mnemonic_long_undefined`: entropy of more than 32 bytes is not refused and shifts by more than the width of the type.
* C13 `path_text_violated`: `KeyChainPath::FromString` uses `std::stoi`, which refuses hardened indices (from 2^31 on); `path_text_lax`: `m5` is accepted as the empty path and `m/-1` as 2^32-1; `proof_message_violated`: paths that are not of length three (original proofs) or longer than four do not survive, the latter overrun the message.
* C15 `slate_context_violated`: an output record without transaction id takes the next four bytes of its context for one; `output_record_lossy_violated`: a present zero comes back absent, labels after the first are lost; `output_record_hardened_violated`.
* C08 `slate_bad_signature_undefined`: serializing a slate whose partial signature does not parse takes `front()` of an empty vector; the JSON reader accepts any 64 bytes there, so a peer can cause it. `slate_nrd_height_lost`: the relative height of a no-recent-duplicate slate is not in the binary form.
* C66 `slate_equality_violated`: `Slate::operator==` tests `blockVersion && rhs.blockVersion` instead of equality and ignores the feature arguments.
* C07 `error_message_violated`: error messages have a documented maximum of zero bytes, so every receiver refuses them. `hand_message_violated`: the length-prefix overflow of C01 is reachable by any peer with a 57-byte hand message.
* C67 `malformed_message_violated`, `empty_ping_violated`: `Connection::HandleReceivedBody` holds the connection's mutex while `ProcessMessage` runs, and the handler for malformed messages calls `Disconnect`, which locks the same non-recursive mutex. Eleven bytes (the header of a ping with an empty body) hang the receiving thread.
* C68 `startup_violated`: `BlockChain::Create` holds the tx hash set manager (`BatchWrite`) when it calls `pTxHashSetManager->Write()->Close()`; a node more than a week of blocks behind its own confirmed tip hangs at start-up.

* C70 `cuckarood_hangs_violated`: the Cuckarood verifier follows edges without counting them until it returns to edge 0. When edges 1 and 2 join the same two nodes in opposite directions and edge 0 leads into them the walk circles between edges 1 and 2 and never ends; finding such edges costs far less than a 42-cycle.
* C69 `small_graph_violated`, `small_graph_header_violated`: for edge bits below 24 `Consensus::ScalingDifficulty` shifts by `edgeBits - 24` as an unsigned 64-bit number. The deserializer lets every size from 1 to 63 through, so any peer reaches this with one header and without work. `edge_bits_violated`: sizes 24 to 28 and 30 are accepted; `ProofOfWork::IsPrimary` is never consulted.
* C32 `future_header_violated`: `Consensus::GetMaxBlockTime` returns clock ticks (nanoseconds with libstdc++) which are compared with a timestamp in seconds, so a header dated thousands of years ahead is accepted. `wtema_collapse_violated` (C27): the block after such a header needs only the minimum difficulty.
* C32 `header_sizes_violated`: the MMR sizes of a header are not compared with its parent's during header validation.
* C27 `wtema_overflow_violated`, `dma_scaling_violated`: 64-bit products wrap at a difficulty of about 1.3e15, and the secondary scaling factor is cut to 32 bits.
* **Equal neighbours pass the order check (C33).** `TransactionBodyValidator` only asks that hashes do not decrease. A body with the same kernel twice, with one commitment spent several times, or with two outputs of one commitment passes. The reference implementation demands strictly increasing hashes, so a block with a duplicate kernel splits the network. Theorems `duplicate_kernel_violated`, `double_spend_violated`, `duplicate_output_commitment_violated`.
* **A block spending one output twice crashes the node (C36).** The check of the body lets one commitment be spent twice (`double_spend_violated`), so the block reaches `TxHashSet::ApplyBlock`. For the second of two equal inputs `GetAt` returns a null pointer, which is only checked by `assert` (TxHashSetImpl.cpp:118-120). Theorem `duplicate_input_violated`.
* **Sizes in the header are not compared with the sizes reached (C36).** `ValidateRoots` takes every root at the size the header states (TxHashSetImpl.cpp:165-193), and no other check compares those sizes with the ranges after the block. A block can add outputs and kernels that none of its roots covers; a later rewind to that block would drop them. Theorem `unlisted_outputs_violated`.
* **Set-based cut-through (C34).** `TransactionUtil` and `TransactionAggregator` subtract sets, so a commitment occurring twice on one side and once on the other disappears from both and the sum changes. Theorem `aggregate_balance_violated`.
* **NRD kernels count as coinbase kernels.** `TransactionKernel::IsCoinbase` tests `features & 1`, and the no-recent-duplicate kernel has features 3.
* **Two header messages stop the node (C71).** `ProcessOrphan` walks from a header to its parent through the pool of unvalidated headers. A header whose parent field is its own hash (easy: the hash covers only the proof's nonces) is pooled on first receipt; on the second the walk never ends, growing a vector, with the chain state locked for writing. Theorem `header_loop_violated`.
* **The hash of a header covers only its proof of work (C38, C72).** `ProcessSingleHeader` answers ALREADY_EXISTS for any header with a known hash without comparing it, `ProcessBlock` ignores the answer, and the block is then checked against its own, unvalidated header. So a block with the proof of a known header but other roots and body is accepted in place of the genuine one (`body_swap_violated`), after which the genuine block is refused as already known; and a block claiming a huge total difficulty under the proof of a stale header makes the node leave the chain with the most work (`fake_work_violated`).
* **Header batches need not be linked (C38, C73).** `ProcessSyncHeaders` compares heights but never the parent hashes inside a batch. Theorems `candidate_unlinked_violated`, `unlinked_batch_violated`.
* **A waiting block is forgotten (C38).** `ProcessNextOrphanBlock` only looks one above the confirmed tip; a waiting block with more work on a fork that starts lower is not looked at when its parent arrives, and it is not asked for again because it is known as an orphan. Theorem `waiting_block_violated`.
* **Not modelled, seen while reading:** a header message sets the peer's advertised total difficulty before any validation (MessageProcessor.cpp:185-187); after a failed reorganisation the orphans removed and the pool reconciled stay so; `UpdateConfirmedChain` does not rewind the confirmed chain to a snapshot header below the common ancestor.
* **Compact blocks: kernels are counted, not ids (C39).** `GetTransactionsByShortId` pushes a transaction once per matching kernel and stops when as many were pushed as ids are sought; two overlapping pool transactions make the count come out right while an id is unmatched, and a different block is built. It fails validation later and the full block is fetched, unless it is put among the orphans. Theorem `overlapping_pool_violated`.
* **Conflicting transactions in the public pool (C40).** `AddTransaction` validates a transaction by itself; two that spend the same output are both admitted. Until the next block the merged public pool is invalid, and as it is part of every selection, nothing is stemmed or fluffed. Theorems `conflict_admitted_violated`, `conflict_stops_relay_violated`.
* **The embargo timer is always expired (C41).** `Pool::AddTransaction` stores `std::time_t()`, which is 0, instead of the current time; each run of the Dandelion monitor therefore broadcasts the whole stem pool. Theorems `stem_expired_at_once_violated`, `new_stem_expired_violated`.
* **Strategy ALL never looks at the coins (C42, C43).** `SelectUsingAllInputs` compares the amount with amount plus fee instead of the coins' total with it: it always succeeds when there is a fee, however little the coins are worth, and always fails when the fee base is 0. The change is then computed modulo 2^64. Theorems `all_unchecked_violated`, `all_free_violated`, `send_all_violated`.
* **Sending the entire balance below the fee (C43).** `inputTotal - fee` wraps around; the only check is an `assert`, compiled out of release builds. With 255 change outputs the `uint8_t` count of outputs wraps to 0 and the fee is too low. With no change output the whole remainder becomes the fee. Theorems `send_entire_violated`, `send_255_violated`.
* **Heights are not updated after a reorganization (C44).** A refresh leaves an output that is already spendable alone, including its height; a coinbase that moved to a later block is offered before it matures. While the node is behind the last refresh, a refresh returns no outputs, so sends find no coins. Theorems `stale_height_violated`, `behind_node_violated`.
* **A send without change is never confirmed (C45).** A refresh marks a send as sent only through an output of the wallet's own; after a send of the entire balance there is none, so the transaction stays 'finalized' for ever and can be canceled after the payment was mined. Finalizing does not look at the status of the transaction: a canceled send can be finalized, canceled again, and then releases coins that another send has locked. Theorems `sent_without_change_violated`, `cancel_after_payment_violated`, `cancel_releases_other_violated`.
* **A slate can be received many times (C46).** `VerifySlateStatus` looks at the first record with the slate's id only: if that is a canceled receipt or the wallet's own unfinalized send, the slate is accepted as often as it is presented. Theorems `receive_own_slate_violated`, `receive_after_cancel_violated`.
* **Restored outputs do not advance the key counter (C49).** The counter starts at a random value and is not moved past the key paths of outputs found by rewinding range proofs; on a collision the record of a confirmed coin is replaced by an unconfirmed one. Theorem `restored_path_violated`.
* **Answering a slate twice reveals the sender's signing key (C75).** `Finalize` neither removes the stored secret key and nonce nor looks at the status of the transaction, and `finalize_tx` is offered on the foreign API, to whoever received the slate. Two responses that differ in the receiver's nonce are both signed with the sender's one nonce, and both finalized slates, with the sender's partial signatures, are returned (the result of posting is ignored, so the double spend does not matter). The key is the quotient of a difference (or sum) of the signatures by that of the challenges. Theorems `nonce_reused_violated`, `finalize_again_violated`.
* **Session tokens (C48).** A key shorter than the stored string is read past its end. The only check of a key is that the unmasked string ends in the first four bytes of the hash of the rest; one in 2^32 forged keys passes, and the wallet is then used with a wrong seed. Bytes after the key are ignored. Logging out needs only the session id. The listener of a user keeps the token of the first login: after logging out of that session, payments are refused although another session of the user is open. If the listener cannot be started, the login fails but the session stays. Theorems `short_key_violated`, `forged_key_violated`, `longer_key_violated`, `logout_forged_violated`, `stale_listener_violated`, `failed_login_violated`.
* **Displayed balances (C76).** `FormatAmount` does not pad the fraction: 1.000000005 grin is displayed as 1.5. Theorem `format_violated`.
* **Headers served for a fork do not connect (C51).** `LocateHeaders` takes the first locator hash found among all stored headers, on the candidate chain or not, and serves the headers of the candidate chain after its height. Theorem `served_fork_violated`.
* **Pruning skips connections (C52).** After erasing a connection the iterator is advanced once more, so the next connection is not looked at, and at the end the iterator is advanced past the end (undefined behaviour). On shutdown every other connection is left open. Theorems `prune_neighbour_violated`, `prune_shutdown_violated`.
* **A banned peer hides all others (C53).** In `GetPeersWithCapability` the `continue` for a banned peer does not advance the iterator: the rest of the passes are spent on it. Theorem `banned_hides_violated`.
* **The listener stops listening (C56).** `Seeder::Accept` returns without accepting again after an error or when the address is blocked or not on the allowed list; then no inbound connection is ever served. If there is nothing else to do, the I/O context has run out of work, is never restarted, and no connection, outbound or inbound, works from then on. The same happens from the start if the port cannot be bound. A peer that resets its connection before it is looked at makes `remote_endpoint()` throw, outside any handler: the program ends. Theorems `deaf_violated`, `stopped_violated`, `hang_up_violated`.
* **Chains shorter than a week are never synced (C61).** `headerHeight - CUT_THROUGH_HORIZON` wraps for header heights below 10080, so `SyncState` says to wait, forever; on a new network or testnet a node does not sync blocks. After a failed state sync the state is requested again whatever the heights; below 2880 headers the height asked for wraps and the header found, none, is dereferenced. Theorems `short_chain_violated`, `failed_sync_violated`.
* **Other networks are not refused (C62).** Hand and shake messages carry the genesis hash, but neither side compares it. Theorem `other_genesis_violated`.
* **Data of a snapshot is not compared with its hashes (C77).** `TxHashSetValidator` checks parents against children and the roots, but never hashes an output, range proof or kernel: a snapshot whose data files hold other entries passes as long as sums, range proofs and signatures do. Kernels may be put in another order or followed by more. Theorems `snapshot_data_violated`, `snapshot_swapped_violated`, `snapshot_extra_violated`.
* **A short kernel file makes validation read outside it (C77).** `ValidateSizes` compares the hash files only. With fewer kernels in the data file than the header says, `ValidateKernelSums` reads behind the end of the mapped file. Theorem `snapshot_short_violated`. For a header at height 0, `ValidateKernelHistory` converts not-a-number to an integer (TxHashSetValidator.cpp:193; `historyBelow`).
* **Range proofs are remembered by commitment only (C60).** Once a proof for a commitment was verified, any other proof for the same commitment is accepted without being looked at, and stored: nodes that have not seen the first one reject the block. Theorem `other_proof_violated`.
* **No range proof, or a short one, reads outside memory (C60).** `VerifyBulletproofs` takes `front()` of the proofs, also of none, which a transaction or block without outputs leads to; and it passes the length of the first proof for all of them. Theorems `no_proofs_violated`, `short_proof_violated`.
* **Orphan pool (C64).** Blocks are only removed when connected, so peers can fill memory with orphans (the proof of work of each is checked first). Of two blocks with the same header only the first is kept, also if its body is wrong. Theorems `unbounded_orphans_violated`, `first_body_violated`.
* **Header cache (C58).** Headers added outside a batch go to the cache although `pTempTransaction->Commit()` is not looked at (RocksDB.h:174-176); a header added to a batch after its commit is in the cache and never in the database. Theorem `late_add_violated`.
* **A node on a fork may never leave it (C78).** `ProcessSyncHeaders` weighs only 128 headers at a time against the whole own chain. If the first 128 headers above the fork have no more work than the own tip they are dropped, and the next 128 fail with "Previous header not found on chain"; each later round does the same. A fork of 129 blocks of equal work is never left, however long the other chain. Theorems `header_sync_stuck_violated`, `header_sync_stuck_case_violated`.
* **Honest peers are banned by the header syncer (C78).** `m_retried` survives a change of peer, so the next peer is banned after one request. A peer that sent all it has is banned when any other peer claims a greater height. Theorems `header_ban_once_violated`, `header_ban_honest_violated`.
* **Slow peers are never forgotten (C80).** `m_slowPeers` is only added to. A peer banned once is banned again in the second it is next asked for a block. Theorem `block_ban_again_violated`.
* **Peers are banned for disconnecting (C80).** A peer that was asked once and is gone when the request runs out cannot be asked again and is banned for fraud. Theorem `block_ban_disconnected_violated`.
* **Kernels of undefined kinds in blocks (C81).** Kernel features are not checked in a block, and every odd value counts as coinbase: a block whose reward kernel has features 3, 5 or 255 is consistent for this node and invalid for others. Theorem `coinbase_features_violated`.
* **Restoring after a reorganisation misses outputs (C83).** The saved restore index is a leaf number of the chain at the time; after a reorganisation the outputs at smaller leaf numbers are never searched unless the user restores from the beginning. Theorem `restore_after_reorg_violated`.
* **An empty answer discards what was found (C83).** When a later batch comes back empty (OutputRestorer.cpp:19-22) the search returns an empty list although earlier batches held own outputs. Theorems `restore_discards_violated`, `restore_last_spent_violated`.
* **The fee shown is not the fee paid (C84).** With an amount and `change_outputs` 0 (or any multiple of 256, the number is cast to a byte), `Wallet::EstimateFee` shows the fee by weight, but the send pays everything above the amount as fee (SendSlateBuilder.cpp:70-74): 60 grin in one coin, 1 grin sent, 59 grin fee. The estimate also counts coins still waiting for confirmations. Theorems `fee_without_change_violated`, `fee_without_change_case_violated`, `estimate_immature_violated`.
* **A shortened seed file is undefined behaviour (C85).** `DecryptWalletSeed` forms `decrypted.begin() + decrypted.size() - 32` without looking at the size; one or two encrypted blocks suffice (SeedEncrypter.cpp:27). Theorem `short_seed_file_violated`; `seed_file_safe` for 48 bytes and more.
* **A stop while the password changes loses the seed file (C85).** `SafeWriteToFile` removes seed.json before renaming the new file; after a stop in between the wallet is not found (the new content is in seed.json.tmp). Theorem `password_change_stop_violated`.
* **Records of the wallet database are not authenticated (C86).** Changing the stored initial vector changes the first 16 bytes of a record at will. Theorem `altered_record_violated`.
* **A slate received as JSON loses its lock height (C87).** `Slate::FromJSON` reads `feat` but not `feat_args` (Slate.cpp:390); `ToJSON` of the result asserts, or throws, because the arguments are missing (329-330). Theorem `slate_json_violated_lock_height`.
* **Fees with a shift are misread from JSON (C06, C87, C88).** `Fee::ToJSON` writes the packed 64 bits, `Fee::FromJSON` takes them as the amount: at least 2^40 nanogrin. Theorems `slate_json_violated_fee`, `tx_json_violated_fee`.
* **`push_transaction` with `"features": {}` or with a signature that does not parse is undefined behaviour (C88).** `getMemberNames().front()` of an empty vector (TransactionKernel.cpp:133), `front()` of the empty result of parsing (Crypto.cpp:154-159). Theorem `kernel_from_json_violated_ub`.
* **Kernels that must not be repeated, coinbase kernels and empty lists cannot be read back from the JSON this code writes (C88).** No `lock_height` is written for NRD kernels, `null` attributes and `null` lists are refused by the readers. Theorems `kernel_json_violated_nrd`, `tx_json_violated_empty`.
* **`"-1"` is read as 2^64−1, `"12abc"` as 12 (C89).** `std::stoull` without a check of what it consumed (JsonUtil.h:351-365); `GetUInt8Opt` casts without a range check. Theorem `json_number_violated`.
* **The client of a remote node passes location and method in the wrong order** (RPCNodeClient.h:25 against HttpConnection.h:39) and drops the parameters of `get_outputs` (RPCNodeClient.h:85). By reading; not modelled.
* C92 `age_header_unchecked_violated`: the call that verifies the code over the header is commented out (Age.cpp:138); an age message with any other code, or with recipient lines removed or added, decrypts as if untouched.
* C92 `age_decrypt_defined_violated`: `ChaChaPoly::Decrypt` guards the tag size with `assert` only (ChaChaPoly.h:83). Whoever knows a slatepack address can seal a box for it and append a payload of 1 to 15 bytes: `encrypted_len` wraps around and an iterator before the beginning of the vector is formed (with libstdc++ this ends as a `length_error`, which is caught; in a debug build the process aborts).
* C92 `age_empty_violated`: an empty text is encrypted to no chunk at all and then refused by every recipient, as an empty result means failure (Age.cpp:106). Slatepacks never encrypt an empty text.
* C93 `snapshot_transfer_violated`: `while (file.read(buffer, BUFFER_SIZE))` ends without sending the last, shorter block (TxHashSetPipe.cpp:211). Unless the archive's size is a multiple of 131072 the receiver waits for the rest, or takes the bytes of later messages for it, fails and bans the peer that served it.
* C93 `archive_large_violated`, `archive_never_ends_violated`: the remaining size is cast to `int` (TxHashSetPipe.cpp:97). Snapshots of 2^31 bytes or more cannot be downloaded (honest peers are banned); an announced size that is a multiple of 2^32 makes the thread loop for ever with `m_processing` set, after which every other peer that sends a snapshot is banned.
* C94 `snapshot_unsolicited_violated`, `snapshot_refused_violated`: an unsolicited snapshot is only logged (TxHashSetPipe.cpp:39-44), and the chain state is closed before the archive is opened (TxHashSetProcessor.cpp:31). One byte of garbage under the hash of any known header closes the chain state of a synchronized node; later valid blocks then fail with a null TxHashSet and their senders are banned.
* C94 `snapshot_wipes_violated`: the folders of the current state are removed before the archive is known to hold the replacement (TxHashSetZip.cpp:54-65, 93-104), so a small archive without entries destroys the state on disk.
* C94 `snapshot_below_violated`, `snapshot_defined_violated`: the peer chooses the header. Below the confirmed blocks, the confirmed chain keeps blocks above the state; a known header above the candidate chain's tip leads to a null dereference (TxHashSetProcessor.cpp:81-82).
* C95 `segment_memory_violated`: `std::vector<uint64_t> hashPos(numHashes)` (Segment.h:97; likewise `leafPos` 107 and the `reserve` calls) uses a 64-bit count from the message. A peer's 49-byte OutputSegment, RangeProofSegment or KernelSegment, which the node never asks for, makes it zero-fill any amount of memory: the process runs out of memory and dies.
* C95 `segment_positions_violated`: the number of positions of a bitmap block is cut to 16 bits (BitmapSegment.h:64) although a block may have up to 255 * 1024 of them.
* C97 `empty_path_violated`: `build_coinbase` accepts a `key_id` with no indices (KeyChainPath.h:48-57). The reward is then made with the master key, and the wallet recognises it under the path m/0/0/0 (ProofMessage.h:52-54), whose key does not open it: the reward cannot be spent.
* C96: `GenerateChildPrivateKey` passes the left half of the HMAC as the secret and the parent as the tweak of `secp256k1_ec_privkey_tweak_add` (KeyGenerator.cpp:64, Crypto.cpp:91), so BIP32's test of the left half against the group order depends on the version of the library.
* C98 `stem_not_private_violated`: because the pool stores time zero with every entry (C41), the round that sends a transaction along the stem also broadcasts it (Dandelion.cpp:82-90): Dandelion hides nothing.
* C98 `failed_stem_violated`: when the relay has gone, the aggregate of the waiting transactions is put into the public pool (Dandelion.cpp:148) while the parts stay in the stem pool and are added and broadcast too when they expire. The public pool then holds transactions that spend the same outputs, and nothing more is relayed (C40).
* C98 `failed_aggregate_stops_embargo_violated`: an exception while aggregating (Dandelion.cpp:77-95) skips the expiry of the embargo; as long as it recurs no stem transaction is ever broadcast.
* C99 `wrong_peer_banned_violated`: a block with a false body (and the hash of a good header) that waits for its parent is not validated; when the next block, from another peer, connects through it, the reorganisation fails and that other peer is banned (BlockPipe.cpp:77-81). The sender of the bad block is not banned, not even when the waiting block is thrown away (BlockChainImpl.cpp:411-418).
* C100 `first_session_slatepacks_lost_violated`: `VersionTable::CreateTable` marks a new database as schema 2 (VersionTable.cpp:12) although all tables have the form of schema 4. The next opening therefore runs the upgrade of the slate table, which copies every row with a null slatepack (SlateTable.cpp:23-59): all slatepacks saved in the first session are lost.
* C100 `version_one_locked_out_violated`: below schema 2 the accounts table is only created if absent, without a row, and an existing one does not get `current_address_index` (AccountsTable.cpp:23-24). The database is then marked as schema 4. Every login reads the address index of `m/0/0` (WalletImpl.cpp:40) and throws, now and later. A database without a schema number is marked 2 and fails to log in once (`upgrade_from_zero_partial`). Contexts of pending transactions are dropped in both cases (SlateContextTable.cpp:18-24).
* C100 (read, not a theorem): `SlateTable::LoadArmoredSlatepack` never updates `highest_stage` (SlateTable.cpp:177-190), so it returns the slatepack saved last, not that of the highest stage.
* C101 `nested_wallet_deleted_violated`, `name_with_separator_violated`: user names are used as paths unchecked (SqliteStore.cpp:83, 113). A wallet named `bob/al` lies inside bob's directory and is deleted, even while open, when bob deletes theirs. A wallet named `x/..` is written into the wallet directory itself, and deleting it removes the wallets of all users. (The second follows the libstdc++ `create_directories`, which reports a new directory for `x/..`.)
* C101 `hidden_name_violated`, `spaces_violated`: a name beginning with a dot can be created but not logged into (FileUtil.cpp:210 hides it from the list LoginHandler.h checks); names are trimmed when a wallet is created or restored (CreateWalletCriteria.h:39) but not at login, deletion or seed display (LoginCriteria.h:36).
* C101 `change_password_ignored_violated`: the `change_password` handler is a stub that answers with an empty result (ChangePasswordHandler.h): the old password stays valid.
* C101 (read, not a theorem): `RestoreFromSeed` answers every failure, also a name already taken, with an invalid-mnemonic error (WalletManagerImpl.cpp:110-114). If creating `wallet.db` fails after `seed.json` was written, the wallet can neither be opened nor created again (SqliteStore.cpp:85-104).
* C102 `onion_version_violated`: TorAddressParser::Parse reads the version byte and never compares it with 3 (TorAddressParser.cpp:92-101, 129-149). For each key 256 texts, one per version, are accepted as addresses of it; only that of version 3 exists in Tor.
* C102 `slatepack_prefix_violated`: SlatepackAddress::Parse ignores the human-readable prefix (SlatepackAddress.h:18-24). An address of the test network (`tgrin…`) or of another coin that carries 32 bytes is accepted on the main network.
* C103 `proof_and_delivery_violated`: the owner call `send` asks for a payment proof only if the address is an onion address (SendSlateBuilder.cpp:139), and delivers over Tor only if it is a slatepack address (SendHandler.h:69-83). No text is both (C102), so no payment delivered by the wallet ever has a proof.
* C103 `stored_proof_unsigned_violated`: finalizing stores the `WalletTx` with the proof from the beginning, which has no signature (FinalizeSlateBuilder.cpp:83-94); the signature is only on the saved slate. No call retrieves or checks proofs; `PaymentProofDTO.h` is included nowhere.
* C103 `foreign_proof_refused`: a wallet without a Tor address refuses, with an empty error message, every slate that asks for a proof, also for its own address (ReceiveSlateBuilder.cpp:145-148), although it could sign.
* C104 `resync_stuck_violated`: `ResyncChain` deletes all block sums and does not rewind the output set (ChainResyncer.cpp:46-52). The sums of the genesis block are put back only while the candidate chain has no header above genesis (ChainState.cpp:49-60). So after a resync every block fails with "Failed to retrieve block sums" (or on the output set), also after restarts, and peers sending correct blocks get the blame; only a snapshot helps, and below 10080 headers none is asked for.
* C104 `genesis_twice_violated`: each time a node without headers is opened, the genesis header is appended to the header MMR (ChainState.cpp:49-54; `AddHeader` always appends). After two openings the MMR is [g, g]; a first header received singly makes it [g, g, h1], and then every correct header at height 2 has the wrong MMR root and is refused, singly or in a batch, for ever; its senders are banned. If the first headers come as a batch, `Rewind(1)` repairs the MMR.
* C105 `rest_height_text_violated`: heights in a REST request are read with `std::stoull(text, &sz, 0)` and `sz` is not looked at (BlockAPI.cpp:107, HeaderAPI.cpp:86): `/v1/blocks/0100` gives block 64, `/v1/blocks/12abc` block 12, `-18446744073709551611` block 5.
* C105 `rpc_conflict_violated`: `get_block` and `get_header` overwrite the result of one parameter by that of the next (GetBlockHandler.h:29-43): with a height and a hash of different blocks the height is ignored without notice.
* C105 `header_height_violated`: `/v1/headers/<height>` reads the candidate chain (HeaderAPI.cpp:88), `get_header` and the requests for blocks the confirmed one: the same height names different headers during a reorganisation or initial sync.
* C106 `outputs_above_tip_violated`: `reserve(highestHeight - startHeight + 1)` (BlockChainImpl.cpp:355) wraps if the start is two or more above the tip, so the request fails with 400 instead of giving an empty list.
* C106 `recreated_output_violated`: `GetBlockWithOutputs` calls an output of the block unspent if its commitment has any position (ChainState.cpp:183-186). When a spent commitment is created again, the old block still lists the spent output, with its old range proof and the new position.
* Not a theorem: `/v1/chain/outputs/byids` writes the commitment as `Commitment{…}` (ChainAPI.cpp:164 uses `Format()`), which no reader of this API accepts.
* C107 `lock_height_lost_violated`: a peer speaking version 1 can give a plain kernel any lock height; it is accepted, changes the kernel's hash, is not covered by the signature (TransactionKernel.cpp:160-181) and disappears when the transaction is sent on at version 2.
* C107 `fee_bits_violated`, `trailing_bytes_violated`: twenty bits of every fee and everything after the end of a message body are ignored, so the same message has many encodings. A kernel whose signer set one of the twenty bits is checked against a message without them and refused.
* C101 `absolute_name_violated`: a wallet named `/x` is created outside the wallet directory (`fs::path::operator/` replaces the directory by an absolute path); no login finds it, `delete_wallet` removes the directory.
* Restoring a wallet from its words begins again at address index 0 (`current_address_index` is not searched for): slatepacks sent to any later address of the wallet cannot be opened until the user has asked for as many new addresses (`restored_wallet_violated`).
* A second login to a wallet whose address was changed in the first session reports the Tor address of the time the listener was started, which is no longer served and differs from the slatepack address shown (`second_login_violated`).
* Logging out after an address change removes the onion service of the address the session began with, not the current one: the service stays published to a port nobody listens on (or that another wallet's server gets later), and after the next login the address still leads to the old port (`logout_leaves_service_violated`).
* `RemoveListener` does not look at the queue of services to add: logging out, or changing the address, before Tor is ready publishes the withdrawn service afterwards (`logout_before_tor_violated`).
* `retry_tor` always starts the service of address index 0 and reports it, also if the wallet has moved on to a later address (`retry_tor_violated`).
* `TorControlClient::Invoke` does not read values of several lines (`250+key=` … `.`): with two onion services running, `GETINFO onions/detached` fails, the rest of the answer is taken for the answer to the heartbeat, and Tor is killed and restarted about every minute; a third wallet opened at the same time is never reachable and makes the other two unreachable again and again (`third_service_violated`, `third_wallet_violated`).
* A single running onion service is reported by Tor as `250-onions/detached=…`, which `QueryHiddenServices` does not read: the service is added again, refused by Tor as a collision, and retried every minute for ever (`running_service_violated`).
* `PeerDB::OpenDB` removes the directory of the peer database at every start (PeerDBImpl.cpp:36): all bans and all known peers are forgotten by a restart, and what the node stores about peers is never read to any effect (`restart_violated`).
* The peer manager forgets peers last heard of more than a week ago, banned ones too (PeerManager.cpp:84-101): a ban of such a peer ends with the second pass, at most thirty seconds later (`old_peer_violated`).
* `UnbanAllPeers`, run at a resync, goes through the peers with `lastContact > 0` only: an address that the user banned and that was never contacted stays banned (`unban_all_violated`).
* `PeersAPI` cuts the address of a request at the first colon (PeersAPI.cpp:130-145): no peer with an IPv6 address can be shown, banned or unbanned (`ipv6_violated`).
* **A key index is used up when the miner supplies the path (C113).** `value_or(pDatabase->GetNextChildPath(..))` evaluates its argument, so every call consumes an index, and a restore has larger gaps to cross. The signature is dereferenced without a look at whether it is null. Theorem `coinbase_built` states the index.
* **A payment to an address with a mistake is sent to nobody, without an error (C114).** `GetRecipients` and `WalletManager::Send` swallow the exception of `SlatepackAddress::Parse`: the coins are locked, the answer is SENT without an error, and the slatepack is not encrypted. `bad_address_violated`.
* **FINALIZED although the node refused (C114).** `WalletManager::Finalize` ignores the result of `PostTransaction`: a transaction the node (or the aggregator) refused is answered as finalized and stays so in the wallet, its coins locked. `finalized_not_posted_violated`.
* **A receiver can answer with another payment's slate (C114).** `SendViaTOR` does not compare the ids, so the other payment is finalized and posted and the one asked for stays pending, while the answer is FINALIZED. `finalized_other_slate_violated`.
* **A canceled payment is posted on the receiver's request (C114).** `finalize_tx` of the foreign interface is open to everyone who reaches the Tor service, and `FinalizeSlateBuilder` does not look at the transaction's type: the receiver of a payment that was canceled finishes it, and coins shown as spendable are spent. `canceled_is_posted_violated`.
* **Null connection (C114).** `ReceiveTxClient::Call` connects anew and uses the pointer unchecked; `TorProcess::Connect` returns null on failure. `lost_connection_violated`.
* **Passwords in the log (C115).** The exception for a body that is not JSON carries the body (`HTTPUtil.cpp:124`), and `RPCServer::Handle` logs the exception: a login or a restore with a typing mistake in the JSON puts the password or the seed words into the log. `malformed_request_logged_violated`.
* **Session tokens in the log (C115).** `send`, `finalize`, `repost_tx`, `cancel_tx` and others say they have no secrets, so their requests are logged with the session token, which is all one needs to spend while the session lasts. `session_token_logged_violated`.
* **Id null (C115).** `SendHandler::GetSlateVersion` throws an `RPCException` without an id, and the answer has the id null instead of the request's. `mismatch_id_violated`. (The body's buffer is allocated by the announced content length before a byte is read, also on the interface reached through Tor; not modelled.)
* **Updates of the configuration undo each other (C116).** `UpdateConfigHandler` changes a copy of the JSON loaded at the start (line 26) and writes it, but never keeps it; the next `update_config` starts from the old JSON again. Both are in force until the program ends, and only the last one after the next start. `restart_takes_last_update` proves this for all sequences, `earlier_update_lost_violated` is a witness.
* **A configuration that cannot be used is overwritten (C116).** `Config::Load` swallows every exception, takes the defaults and writes them over the user's file: a number in quotes, an address like `10.0.0.[` (for which `std::stoi` throws), a list with an IPv6 address (for which the hash throws). `update_config` itself can write such a file: `max_peers` above 2^31-1 is accepted (and is negative in memory), and the next start discards all settings. `one_bad_entry_violated`, `accepted_update_wipes_violated`.
* **Other settings (C116).** With `DATA_PATH` set, or another configuration path given on the command line, `update_config` writes `server_config.json` in the data directory, which no start reads. `reuse_address` 2 is off now and on after a restart. A failing update (an address that does not parse) leaves the numbers before it in force. `min_peers` above `max_peers` is accepted. A stem probability of 300 is taken as 44. `other_directory_violated`, `reuse_changes_violated`, `failed_update_in_force_violated`, `min_above_max_violated`, `probability_cut_violated`.
* **Turning bridges on deletes the rest of the Tor configuration (C117).** `AddRequiredHeadersTorBridges` copies only lines that name both `ClientTransportPlugin` and `Bridge` (the condition is inverted), so every other setting of the user in `.torrc` is gone, and is not back when bridges are turned off. `own_settings_lost_violated` (for every file).
* **Lists of bridges add up (C117).** `update_tor_config` adds to the bridges in the file: the same list twice is there twice, a bridge left out stays in use. One that does not begin with `obfs4` stays in the file when bridges are turned off. `bridges_pile_up_violated`, `left_out_stays_violated`, `other_bridge_stays_violated`.
* **A bridge can write any Tor setting, or end the program (C117).** Bridges are written as they come: after a line feed comes any setting (also one that runs a program, `ClientTransportPlugin … exec`). A line that is just `Bridge` makes `substr(7)` throw in a `noexcept` function, each time the bridges are listed. `bridge_writes_settings_violated`, `bridge_ends_program_violated`.
* **Where the wallet lives matters (C117).** With `Bridge` in the name of the data directory (user `Bridget`) going from obfs4 to snowflake leaves `UseBridges` off. If the working directory is on another file system than the data directory (or cannot be written), the old `.torrc` is removed and `rename` throws in a `noexcept` function: the program ends. `bridget_without_bridges_violated`, `other_file_system_violated`.
* **Ranges without an end (C118).** `list_txs` multiplies `start_range_ms` and `end_range_ms` by a million as signed 64-bit numbers: from 9223372036855 on (JavaScript's largest integer, for instance) this is undefined behaviour; near the largest 64-bit number it is a time before 1970 and nothing is listed. `list_txs_far_end_violated`.
* **Ids that name other transactions, or all (C118).** `list_txs` cuts ids to 32 bits, and an `ids` that is not a list is ignored: everything is listed. `list_txs_id_cut_violated`, `list_txs_single_id_violated`.
* **No transactions is null (C118).** If nothing matches, `txs` of the answer is null, not an empty list (so are `kernels` and `outputs` of an entry). The kinds a list shows (`Canceled`, `Sending (Finalized)`) are refused in `statuses`. `list_txs_null_violated`, `list_txs_kinds_violated`.
* **An old answer is taken for a new one (C119).** The buffer of the HTTP client is not emptied when it connects again. If a server sends bytes after its answer (or a call ends in the middle of an answer), the next call of this client begins with them: a server that sends two answers decides what the call after it returns. `http_stale_violated`.
* **A refusal of the proxy is taken for a connection (C119).** `SOCKSClient::Connect` does not look at the code of the reply. If Tor says that the address cannot be reached, the request is written anyway, nothing is tried again (the loop of attempts never sees a refusal), and the error shown is the end of the stream. `tor_refused_violated`.
* **Answers without a length (C119).** An answer with no `Content-Length`, or with a length of 0 (`204`, chunks), is an error, whatever it says; the status of an answer is never looked at. `http_no_length_violated`.
* **No wallet starts on a node elsewhere (C120).** `RPCNodeClient::Create` passes the method as the place and the place as the method: `Invoke("get_version", "/v2/foreign", …)` for `Invoke(location, method, …)`. The request goes to a place nothing is at. `remote_start_violated`.
* **Coins are not asked for (C120).** `GetOutputsByCommitment` builds parameters and sends none; and neither `get_outputs` nor `get_unspent_outputs`, which the client calls, is a method of this program's node. `remote_coins_violated`, `remote_scan_violated`.
* **Times of headers (C120).** `timestamp` in the JSON of a header is local time with ` UTC` written after it, and is read as local time without summer time. A header of summer is read an hour off, even on the same machine; between zones by their difference. `timestamp_raw` is written and not read. `remote_time_violated`.
* **Refused is taken for posted (C120).** `PostTransaction` takes any response with a result for success; nodes that answer `{"Err": …}` in the result (as grin does) refuse without the wallet noticing. `remote_refused_violated`.
* **A node's header is written out of bounds (C120).** `BlockHeader::FromJSON` takes `cuckoo_solution` of any length and `edge_bits` up to 255 and packs the nonces into a buffer for 42: 43 nonces write beyond it. `remote_header_overflow_violated`.
* **Stem transactions are broadcast by the node (C120, not a theorem).** `PushTransactionHandler` broadcasts every transaction the pool took, also those meant for the stem (PushTransactionHandler.h:44-48).
* **Tor is started anew for anyone (C121).** `retry_tor` parses a token, calls `RetryInit`, and only then looks whether the token is of a session; if `RetryInit` fails it never looks. `owner_retry_violated`. `set_tor_config` asks for no session at all.
* **The owner interface tells of sessions by number (C121).** `logout` of a number without its key ends that session, and numbers are consecutive: who may log in to a wallet of their own knows the numbers of their neighbours. `owner_logout_violated` (through the interface; `logout_forged_violated` for the manager).
* **A receiver can make a payment worthless (C123).** `Finalize` validates the finished transaction but does not compare its fee with its weight. A receiver who splits the amount over several outputs gets the sender's wallet to finalize and store a transaction below the minimum fee, which every node refuses; the sender's coins stay locked, and `Finalize` reports success because the result of posting is not looked at. `finalized_fee_low_violated`.
* **The first output is never in the default listing (C125).** `GET /v1/txhashset/outputs` without parameters starts at `start_index` 1, but leaves are counted from 0: the page holds the outputs from the second leaf on. `listing_default_violated`. Beside it, and not theorems: an empty list is written as `null`, a page without outputs answers `last_retrieved_index` 0 (a client that goes on from there starts anew), `lastkernels?n=` has no upper bound, and a number that is none is answered with status 500.
* **Amounts in text are read up to the first character that is no digit (C128).** `send` with `"amount": "1.5"` sends 1 nanogrin, and `"-1"` is 2⁶⁴ − 1 (`amount_text_violated`): `std::stoull` is used without looking at where it stopped. JsonUtil.h:351-365.
* **Change outputs are cut to eight bits (C128).** `"change_outputs": 256` or `null` is read as 0 (`change_outputs_violated`); with no change output all that the coins are worth above the amount becomes fee (C84). SendCriteria.h:60.
* **Transaction numbers are cut to 32 bits (C128).** `cancel_tx` and `repost_tx` with `tx_id` 2³² + n act on transaction n (`cancel_other_violated`), and `cancel_tx` with a number no transaction has answers SUCCESS (`cancel_unknown_violated`). CancelTxCriteria.h:37, RepostTxCriteria.h:35, Wallet.cpp (CancelTx).
* **Outputs are listed as Spendable although the wallet does not spend them (C129).** `list_outputs` shows the stored status, in which an output in a block is spendable at once, whereas `getBalance` and the choice of coins also ask for the confirmations configured and the maturity of a coinbase (`listed_spendable_violated`). Adding up the list gives more than the spendable balance. Wallet.cpp:110-128, WalletOutputDTO.h:39-104.
* **A stranger decides the total shown (C131).** `receive_tx` takes any amount and the payment is counted in `total` at once, without any confirmation and modulo 2⁶⁴: for each number there is an amount with which one request makes the total shown that number, 0 included (`stranger_sets_total_violated`). The spendable balance is not affected (`strangers_keep_coins`). Wallet.cpp:35-70, WalletBalanceDTO.h:28-35.
* **build_coinbase in the documented form never works (C132).** The comment at ForeignServer.cpp:203-217 shows the parameters as a list with `fees`, `height` and `key_id`; `BuildCoinbaseCriteria::FromJSON` asks for an object with a `session_token`, so each such request is refused (`coinbase_documented_violated`). BuildCoinbaseCriteria.h:17-30.
* **Slate versions are cut to 16 bits, and no version counts as no answer (C132).** A wallet that supports only version 65540 is taken to support 4 (`version_wraps_violated`); one that lists none is sent version 4 (`no_version_violated`). CheckVersionClient.h:37-50, SendHandler.h:85-102.
* **Started with `--h`, the program hangs (C133).** An abbreviation that fits two options makes `ketopt` return before it moves on to the next argument (ketopt.h:84), so the loop of `ParseOptions` (opt.h:44) meets the same argument for ever: `--h`, `--he`, and `--=value` (`ambiguous_option_hangs_violated`).
* **A mistyped option is passed over in silence (C133).** `--flonet` starts the program on the main network, `--shared-node` without a value starts a node of its own, `--shared-node=host` without a port reads past the end of a vector and port 65616 becomes 80 (`unknown_option_ignored_violated`, `shared_node_without_value_violated`, `shared_node_without_port_violated`, `shared_node_port_wraps_violated`).
* **Served snapshots carry the wrong set of unspent outputs (C134).** A running node keeps its unspent leaves in `pmmr_leafset.bin`; `pmmr_leaf.bin` is only read, once, after an archive was unpacked (OutputPMMR.h:20-29), and `LeafSet::Snapshot` is called nowhere. `SaveSnapshot` nevertheless renames `pmmr_leaf.bin` and packs it (TxHashSetManager.cpp:130-139). A peer so gets the data of the header it asked for with the unspent leaves of the archive the serving node started from (`served_leaves_are_old_violated`); its check of the sums fails and it bans the honest node. A node that synced block by block has no such file and serves nothing (`without_archive_none_served_violated`), and its connection stays muted, as `DisableSends(true)` is not undone.
* **Packed files are cut at 4 GiB (C134).** `Zipper::AddFile` passes `(unsigned int)size` to the library (Zipper.cpp:78): only the size modulo 2^32 is stored, without an error (`snapshot_large_cut_violated`).
* **A node that cannot read its tip bans whoever sends a transaction (C135).** `BlockChain::AddTransaction` ends with `return INVALID` for any exception and for a missing confirmed header (BlockChainImpl.cpp:234-239), and the pipe takes INVALID for a bad transaction and bans (TransactionPipe.cpp:57-60): a failing database makes the node ban its honest peers one after the other (`unreadable_tip_bans_violated`).
* **A reorganisation frees coins that are set aside (C137).** `RefreshOutputs` marks a locked output that is not on the chain as spent and a spent one that is on the chain as spendable (WalletRefresher.cpp:122-150). If the block that made the coin is undone and the coin is mined again, the lock of the payment under way is gone and the next payment picks the same coin (`reorg_unlocks_violated`).
* **A payment undone by a reorganisation stays "received" (C137).** `RefreshTransactions` only ever moves transactions to `SENT` or `RECEIVED`; nothing takes that back, and the height of the abandoned block stays (`settled_for_good`, `undone_stays_received_violated`).
* **Heights are not updated when an output is mined again (C137).** An output that is `SPENDABLE` is taken as up to date (WalletRefresher.cpp:126-129), so a coinbase mined again some blocks later is offered for spending before the chain allows it (`remined_height_stale_violated`). And `Refresh` does nothing at all while the node's chain is lower than at the last refresh (`lower_chain_unseen_violated`).
* **A connection can fall silent for ever (C138).** `SendAsync` asks whether the queue is empty and pushes in two steps (Socket.cpp:186-187). If the write under way completes in between, `HandleSent` finds the queue empty and starts no write, and the message is then pushed by a call that believes one is under way. From then on every call finds the queue not empty: nothing is ever sent again (`send_stuck_violated`, `stuck_for_good`).
* **Messages are sent from freed memory (C138).** The buffer given to `async_write` is the caller's vector (Socket.cpp:198, a local of `Connection::SendAsync`) or a local copy (Socket.cpp:216-222); both are gone when the call returns. If the system does not take the whole message at once, which is usual for blocks and lists of headers on a slow connection, the rest is read from freed memory and sent to the peer (`buffer_freed_violated`).
* **A message can be sent twice (C138).** Two threads that both find the queue empty both start a write; the first completion handler then takes the second message from the queue and sends it again (`sent_twice_violated`).
* **A node can hang for good when a connection dies at the wrong moment (C139).** Every 100 ms the seeder thread runs `PruneConnections`, which locks the list of connections for writing and, for a connection whose socket failed, whose peer was banned or that was silent for a minute, calls `Disconnect`, which locks the connection (ConnectionManager.cpp:193-200, Connection.cpp:23). The network thread handles each message with the connection locked (Connection.cpp:178-197) and, after a new block, reads the list to announce it (MessageProcessor.cpp:246, 277, ConnectionManager.cpp:165). If the connection dies while its block is being processed, both wait for each other for ever. There is only one network thread, so no message of any peer is handled any more; posting a transaction and every later look at the connections hang as well (`node_stuck_violated`, `whole_node_stuck_violated`). A peer can bring this about by sending a block and closing its connection while it is processed; at shutdown, where all connections are closed the same way (ConnectionManager.cpp:35), the same can happen without any error.
* **A snapshot does not replace what the node knew before (C140).** `ProcessTxHashSet` adds the positions of the outputs of the snapshot and removes none (TxHashSetProcessor.cpp:56, TxHashSetImpl.cpp:232-256); only a resync empties the table (ChainResyncer.cpp:50). A node that was away for long and takes over a new snapshot keeps the positions of all outputs that were spent meanwhile: it reports them to wallets as unspent (DefaultNodeClient.h:95, ChainAPI.cpp:160), fails when they are looked up, and a block that spends one of them makes it dereference a null pointer (TxHashSetImpl.cpp:117-120, the check is an `assert`), where other nodes refuse the block (`spent_output_kept_violated`). If the old position now belongs to another unspent output, `ApplyBlock`, which does not compare commitments, accepts the block and removes the other output (`other_output_spent_violated`); only the roots in the header could still refuse it.
* **Any peer can crash a node that is taking over a snapshot (C141).** `CoinView::GetOutputType` uses the chain state without asking whether there is one (CoinView.cpp:16-18). `ProcessTxHashSet` closes it before it unpacks and validates the snapshot (TxHashSetProcessor.cpp:31), which takes long, and it stays closed if the snapshot is refused; the positions of the outputs known before are still in the database. Block messages are read in every state of synchronization (MessageProcessor.cpp:235), so a block with one known input and any proof of work ends the process (`closed_crash_violated`).
* **Blocks that arrive early are changed (C141).** An input whose output the chain does not have yet is read as plain (CoinView.cpp:11-13, with a TODO). A block that arrives before its parent and spends a coinbase output of it is kept as an orphan, later accepted, stored and sent to peers of version 1 and 2 with the wrong features of that input (`orphan_features_violated`); such peers compare them with the output.
* **A node asked to stop may hang (C142).** `Seeder::~Seeder` locks `m_mutex` and then joins the network thread (Seeder.cpp:24-26), and `Seeder::Accept`, which runs in that thread, locks the same mutex first (Seeder.cpp:124). If a peer connects in that moment, so that `Accept` has been called when the destructor takes the mutex, both wait for each other for good: the program does not end, whatever else its threads do, and databases are never closed properly (`stop_hangs_violated`). Peers connect all the time; who wants to can make it likely by connecting again and again.
* **Blocks that lose remove waiting payments, and undone payments are forgotten (C143).** `ValidateAndAddBlock` calls `ReconcileBlock` for every block of a branch that is tried (BlockProcessor.cpp:224), before it is known whether the branch has more work (158) or whether its later blocks fit. If it does not, the batch is rolled back (173), but the pool is not part of the batch: a payment in the losing block is dropped from the pool although its inputs are unspent and it is on no chain (`losing_fork_drops_violated`, `failing_fork_drops_violated`). When the branch wins, the transactions of the blocks it replaces are not put back into the pool ("TODO", 149): a payment that was confirmed is then neither on the chain nor waiting (`undone_not_returned_violated`), and the node will not offer it again; the wallet that made it has to repost. Two blocks at the same height are an everyday event.
* **Two peers that ask for the same snapshot spoil each other's (C144).** The archive lies at a path made of the header's short hash (TxHashSetManager.cpp:101-102). It is made under the lock of the chain state, but sent after the lock is released (TxHashSetPipe.cpp:188-229). A second request for the same header empties the file the first thread is reading: the first peer was told a size and gets fewer bytes (`same_header_cut_violated`). The first thread removes the name when it is done: a second thread that has not opened it yet sends nothing (`same_header_lost_violated`), and one that has opened it asks the path for the size, for which `GetFileSize` returns 0 instead of failing (FileUtil.cpp:239-242), announces 0 bytes and sends blocks after that, which the peer reads as messages (`same_header_zero_violated`). Nodes that sync at the same time ask for headers at the same distance from the tip, so equal headers are to be expected.
* **A refused snapshot request mutes the connection (C144).** `SendTxHashSet` disables sends (TxHashSetPipe.cpp:164); they are enabled again only after a complete transmission (222). An unknown header (181), one below the horizon or a failure to make the archive (190-192) or to open it (198-201) leaves them disabled, and `SendAsync` then drops every message to that peer, without an error, as long as the connection lasts (`refused_request_silences_violated`).
* **A peer that delivered the state is banned at the next sync (C145).** `RequestState` bans `m_pPeer`, the peer asked last, whatever came of it (StateSyncer.cpp:92-97), and nothing clears it when the state is accepted. A node that was suspended for more than a week, or was resynced, bans the peer that served it well (`helpful_peer_banned_violated`).
* **A silent second peer is waited for two hours (C145).** The rule that a peer must start within ten seconds looks at the bytes downloaded (StateSyncer.cpp:71-79), but that count is reset only when an archive is announced (TxHashSetPipe.cpp:82). After an attempt that broke off, it still has the old bytes: a second peer that never answers is replaced only after two hours, unless it disconnects (`second_silent_peer_waited_for_violated`). If there is no peer at the moment of the second attempt, no peer is asked until two hours after the first (`no_peer_then_waits_violated`). One peer that sends a few bytes and hangs up delays the sync of a new node so.

## Trusted base

1. **Lean's kernel** (4.33.0).  Nothing else accepts a proof: no `native_decide`, `bv_decide`, `sorry`, `admit` or own axiom
   occurs.  `decide +kernel` occurs on closed examples and witnesses only; it asks the kernel to evaluate.
2. **Axioms.**  See the table below: every theorem listed in `MANIFEST.json` depends on a subset of `propext`,
   `Classical.choice`, `Quot.sound`.
3. **The reading of the C++**: that each definition of the model does what the lines it cites do.  Nothing checks this but
   reading.  Where a definition simplifies, its comment says so.
4. **The statements**: that the theorem says what the English property says.  The experiments in `seeded/LOG.jsonl` test
   this: each edits a definition as a bug would and records which theorems fail.
5. **What is assumed of parameters**, below.

### Parameters, and what is assumed of them

Anything outside the code or too large to model is an argument of the definitions, so the theorems hold for every value of
it unless a hypothesis restricts it.  Hypotheses are in the theorem statements; this list says where to look.

| parameter | stands for | assumed |
|-----------|------------|---------|
| `H : Bytes → Bytes`, `DigestNum`, `Hashes` | Blake2b, SHA-256, SipHash as used for ids (given in C112) | nothing; where needed, no collision among the strings that are hashed in the statement, or no zero digest |
| `Curve G` | Pedersen commitments and their sums (secp256k1-zkp) | a homomorphism into a commutative group; for no money creation, that the two generators are independent for the values that occur |
| `Scheme F G X M` | aggregated Schnorr signatures | the group is a module over a field; the verification equation |
| `ProofLib` | verification and rewinding of bulletproofs | nothing; for caching, that the answer is a function of commitment and proof |
| `Rules S`, `PoolRules S` | the block and header rules seen by block processing and by the pool | header rules as proved in C32; block rules arbitrary |
| `AgeOps` (C09), `AgeEnv` (C92) | ChaCha20 key stream, Poly1305, X25519, HKDF, HMAC | tags have 16 bytes, keys and codes 32; both sides of X25519 agree; a box for another recipient does not open (`BoxesSeparate`) |
| `Wallet.Crypt.Primitives` | AES-256 on one block, scrypt, HMAC-SHA256 | block decryption inverts block encryption under the same key; for refusing another password, that the two passwords and seeds give different authentication codes |
| `KeyLib` (C96, C97) | HMAC-SHA512, public keys, sums of secrets, Blake2b, switch blinding, range proofs | `KeyLaws`: lengths; a sum of secrets is a valid secret, and the sum modulo the order for valid ones; a proof rewinds with its rewind nonce to its amount and message and with no other |
| `Disk`, `DB`, finite maps | files, RocksDB, SQLite | a write that returned is read back; batches are atomic where C25/C26 say so; otherwise any prefix of the writes may survive a crash |
| `NodeView`, `BlockView`, `HeaderView`, `SyncView`, `DownloadView` | what a component sees of the others, at each call | arbitrary, or consistent with a named chain where the theorem says so |
| clocks, random numbers | `std::chrono`, `CSPRNG` | arbitrary; monotone where a theorem says so; a random number lies in the range asked for |
| fuel | loops without a static bound | running out is `ub`; theorems give an amount that suffices, or prove that none does |

### Not modelled

Third-party libraries (secp256k1-zkp, RocksDB, SQLite, asio, Roaring, minizip, civetweb, jsoncpp); threads, except for the locks of C67,
C68 and the interleavings stated with a property; operating-system behaviour beyond ordered writes; the cryptographic strength
of any primitive; memory use and running time; logging; the text syntax of JSON; the Tor process; the user interface.

### Axioms each theorem depends on

As reported by Lean's `collectAxioms` on the built project.

* none (11): `readVarStr_violated`, `proof_message_violated`, `straddling_read_violated`, `wallet_batch_violated`, `txhashset_replacement_violated`, `send_255_violated`, `rate_clock_violated`, `header_ban_once_violated`, `fee_without_change_case_violated`, `estimate_immature_violated`, `derive_hierarchical`.
* `propext` (64): `vector_roundtrip`, `fee_json_violated`, `nested_wallet_deleted_violated`, `name_with_separator_violated`, `hidden_name_violated`, `absolute_name_violated`, `spaces_violated`, `change_password_ignored_violated`, `started`, `refused_changes_nothing`, `unlisted_peers`, `reorg_unlocks_violated`, `remined_height_stale_violated`, `lower_chain_unseen_violated`, `sent_in_order_partial`, `sent_twice_violated`, `stuck_stays`, `unused_block_keeps_pool`, `refused_block_keeps_pool`, `chain_ignores_pool`, `losing_fork_case_violated`, `failing_fork_case_violated`, `undone_case_violated`, `refused_request_silences_violated`, `data_crash_violated`, `record_crash_violated`, `safe_write_crash_violated`, `state_crash_violated`, `wtema_overflow_violated`, `dma_scaling_violated`, `fake_work_case_violated`, `unlinked_batch_violated`, `deep_block_refused`, `smallest_misses`, `send_all_violated`, `send_entire_violated`, `behind_node_violated`, `stale_height_violated`, `cancel_after_payment_violated`, `cancel_releases_other_violated`, `receive_own_slate_violated`, `receive_after_cancel_violated`, `restored_path_violated`, `tx_id_wrap_violated`, `served_fork_violated`, `listening_partial`, `deaf_violated`, `stopped_violated`, `hang_up_violated`, `queue_fifo`, `late_add_violated`, `no_proofs_violated`, `outbound_connected_violated`, `slate_equality_partial`, `slate_equality_violated`, `slate_equality_irreflexive_violated`, `malformed_message_violated`, `body_swap_case_violated`, `candidate_unlinked_violated`, `block_ban_again_violated`, `block_ban_disconnected_violated`, `view_by_public_key`, `foreign_output_ignored`, `wrong_peer_banned_violated`.
* `Quot.sound`, `propext` (182): `readBytes_in_bounds_partial`, `readBE_safe`, `readBytes_ub_iff`, `readVarStr_in_bounds_partial`, `bytes_roundtrip`, `slate_bad_signature_undefined`, `slate_nrd_height_lost`, `upgrade_keeps_partial`, `newer_refused`, `upgrade_from_two_partial`, `upgrade_from_zero_partial`, `always_opens`, `reopening_invisible_partial`, `stored_records_kept_partial`, `version_one_locked_out_violated`, `delete_needs_password`, `create_overwrites_nothing_partial`, `delete_leaves_others_partial`, `slatepack_key_valid`, `proof_not_asked`, `resync_stuck_violated`, `first_start`, `restart_keeps_partial`, `signed_kernels_accepted`, `batch_checks_each_kernel`, `unreadable_kernel_rejected`, `valid_terms_accepted`, `finalized_kernel_accepted`, `new_address_fresh`, `current_address`, `second_login_violated`, `logout_leaves_service_violated`, `logout_before_tor_violated`, `retry_tor_violated`, `bech32_decode_safe`, `peer_request`, `ipv6_violated`, `sent_not_posted`, `finalized_answer_partial`, `finished_transaction`, `posted_was_started`, `repost_exact`, `torrc_lines`, `tx_record_seconds`, `mnemonic_spacing`, `wordList_good`, `mnemonic_long_undefined`, `path_text_accepts_only`, `open_refuses`, `open_resumes`, `stranger_sets_total_violated`, `unreadable_tip_bans_violated`, `all_sent_partial`, `stuck_for_good`, `send_stuck_violated`, `node_stuck_violated`, `waiting_until_settled_partial`, `losing_fork_drops_violated`, `failing_fork_drops_violated`, `undone_not_returned_violated`, `same_header_cut_violated`, `same_header_lost_violated`, `same_header_zero_violated`, `state_bans_partial`, `failed_attempt_next_asked`, `output_record_format`, `kernel_rewind_forward_refused`, `bitmap_index_violated`, `bitmap_index_always_false`, `data_crash_partial`, `append_crash_keeps`, `flush_effects_complete`, `bitmap_crash_violated`, `state_crash_order_partial`, `batch_session_correct`, `batch_dropped`, `batch_committed`, `write_session_persists`, `composite_session_correct`, `wallet_session_partial`, `header_version_spec`, `header_version_mono`, `header_version_unique`, `current_weight_rule`, `old_weight_rule`, `header_time_partial`, `header_sizes_violated`, `body_accepts_iff`, `body_sorted_partial`, `duplicate_kernel_violated`, `double_spend_violated`, `duplicate_output_commitment_violated`, `cut_through_disjoint`, `aggregate_balance_violated`, `next_block_adopted`, `waiting_block_violated`, `overlapping_pool_violated`, `selection_joint`, `reconciled_joint_partial`, `stem_offer`, `fluff_offer`, `expired_iff_partial`, `stored_time`, `stem_expired_at_once_violated`, `new_stem_expired_violated`, `selection_sound_partial`, `fewest_optimal`, `smallest_prefix`, `custom_exact`, `all_unchecked_violated`, `all_free_violated`, `send_balances_partial`, `change_split`, `send_entire_partial`, `send_effect`, `cancel_effect`, `cancel_refused`, `send_cancel_restores`, `sent_without_change_violated`, `receive_once_partial`, `aggregate_valid`, `finalize_sound`, `session_iff`, `opens_iff`, `issued_opens`, `dead_refused`, `short_key_violated`, `longer_key_violated`, `logout_forged_violated`, `stale_listener_violated`, `failed_login_violated`, `transactions_kept_partial`, `candidateHeader_iff`, `peers_found`, `peers_found_partial`, `banned_hides_violated`, `queue_unique`, `pipe_moves`, `pipe_round`, `pipe_bans`, `lru_evicts`, `short_proof_violated`, `short_chain_violated`, `failed_sync_violated`, `inbound_partial`, `outbound_partial`, `exchange_partial`, `exchange_version`, `other_genesis_violated`, `slate_commitments_distinct`, `slate_additions_kept`, `message_handling_ends_partial`, `empty_ping_violated`, `small_graph_violated`, `small_graph_header_violated`, `header_loop_violated`, `body_swap_violated`, `admitted_iff`, `admitted_effect`, `validator_ok`, `finalize_again_violated`, `contexts_kept`, `send_again_refused`, `header_ban_after_progress`, `header_ban_honest_violated`, `blocks_needed`, `blocks_needed_prefix`, `block_quiet`, `coinbase_features_violated`, `fee_without_change_violated`, `password_change_stop_violated`, `written_length`, `json_number_refused`, `Verif.PoW.U128.u128_add`, `Verif.PoW.U128.u128_sub`, `Verif.PoW.U128.u128_shl`, `Verif.PoW.U128.u128_shr`, `age_stream_encrypt`, `archive_never_ends_violated`, `child_key_standard_partial`, `failed_aggregate_stops_embargo_violated`, `failed_stem_violated`.
* `Classical.choice`, `Quot.sound`, `propext` (597): `integer_roundtrip`, `integer_le_roundtrip`, `varStr_roundtrip`, `integer_encoding_bijective`, `input_roundtrip`, `output_roundtrip`, `outputId_roundtrip`, `kernel_roundtrip`, `body_roundtrip`, `tx_roundtrip`, `header_roundtrip`, `block_roundtrip`, `compact_roundtrip`, `kernel_unknown_features_violated`, `unsorted_body_accepted`, `kernel_message_injective`, `cycle_roundtrip`, `pow_roundtrip`, `pow_hash_canonical_partial`, `pow_hash_of_content_partial`, `pow_hash_violated`, `fee_roundtrip_partial`, `fee_roundtrip_violated`, `fee_json_roundtrip_partial`, `payload_roundtrip`, `message_header_accepted_iff`, `message_received`, `modest_messages_fit`, `error_message_violated`, `hand_message_violated`, `slate_roundtrip`, `armor_roundtrip_iff`, `armor_roundtrip_partial`, `armor_zero_checksum_violated`, `unarmor_ignores_spaces`, `slatepack_message_roundtrip`, `slatepack_roundtrip_partial`, `slatepack_age_roundtrip_partial`, `slatepack_unreadable_partial`, `base58_encodes`, `base58_roundtrip`, `base58_injective`, `base58_plain_roundtrip`, `base58_check_roundtrip`, `base58_check_sound`, `latest_slate`, `other_slates_kept`, `saved_slate_loaded`, `first_session_slatepacks_lost_violated`, `wallet_kept_partial`, `create_then_login_partial`, `base32_text_roundtrip`, `base32_accepts_iff`, `onion_roundtrip`, `onion_accepts_iff`, `onion_unique_partial`, `onion_version_violated`, `slatepack_prefix_violated`, `slatepack_and_onion`, `onion_not_slatepack`, `payment_message_injective`, `proof_required`, `receiver_confirms`, `foreign_proof_refused`, `proof_exchange_completes`, `proof_means_received`, `proof_and_delivery_violated`, `stored_proof_unsigned_violated`, `resync_repairs`, `resync_keeps_headers_partial`, `genesis_twice_violated`, `rest_by_height`, `rest_by_hash`, `rest_by_output`, `rest_answers`, `rpc_one_parameter`, `rest_height_text_violated`, `rest_leading_zero_violated`, `rpc_conflict_violated`, `rpc_output_wins_violated`, `header_height_violated`, `outputs_by_height`, `listed_height_partial`, `outputs_query`, `outputs_above_tip_violated`, `recreated_output_violated`, `kernel_relayed_partial`, `tx_relayed_partial`, `header_relayed_partial`, `header_bytes_kept`, `block_relayed_partial`, `payload_relayed_partial`, `payload_bytes_kept`, `segment_bytes_kept`, `lock_height_lost_violated`, `fee_bits_violated`, `header_padding_violated`, `trailing_bytes_violated`, `single_kernel_iff`, `one_unsigned_kernel`, `invalid_batch_rejected`, `signed_snapshot_accepted`, `single_kernel_body`, `shown_address_opens_partial`, `tor_listener_partial`, `restored_wallet_violated`, `bech32_accepts_only`, `slatepack_address_accepts_only`, `base32_roundtrip`, `bech32_checksum`, `bech32_single_error`, `bech32_roundtrip_partial`, `bech32_address_partial`, `slatepack_address_roundtrip`, `bech32_long_violated`, `reply_in_step`, `error_in_step`, `commands_in_step`, `add_service_partial`, `two_wallets_served`, `value_lines_violated`, `running_service_violated`, `third_service_violated`, `third_wallet_violated`, `ban_partial`, `not_banned`, `pardoned`, `unban_all_partial`, `unban_all_violated`, `restart_violated`, `old_peer_violated`, `shown`, `peer_record`, `ban_request`, `peer_get_changes_nothing`, `siphash_is`, `edge_ends`, `proof_accepted`, `short_id_is`, `coinbase_built`, `coinbase_pays_exactly`, `coinbase_found`, `own_signature_valid`, `slate_version_agreed`, `bad_address_violated`, `finalized_not_posted_violated`, `finalized_other_slate_violated`, `canceled_is_posted_violated`, `lost_connection_violated`, `every_request_answered`, `request_read`, `answer_id_partial`, `wrong_method`, `call_round_trip`, `secrets_not_logged_partial`, `malformed_request_logged_violated`, `session_token_logged_violated`, `mismatch_id_violated`, `update_in_force`, `restart_takes_last_update`, `update_survives_restart_partial`, `too_few_peers_refused`, `listed_peers`, `starts_with_any_file`, `file_numbers`, `earlier_update_lost_violated`, `reuse_changes_violated`, `accepted_update_wipes_violated`, `one_bad_entry_violated`, `failed_update_in_force_violated`, `other_directory_violated`, `min_above_max_violated`, `probability_cut_violated`, `tor_call_partial`, `tor_calls_partial`, `own_settings_lost_violated`, `bridges_pile_up_violated`, `left_out_stays_violated`, `other_bridge_stays_violated`, `bridge_writes_settings_violated`, `bridge_ends_program_violated`, `bridget_without_bridges_violated`, `other_file_system_violated`, `tx_record_read_back`, `tx_record_roundtrip_partial`, `tx_record_newer_refused`, `tx_record_settles`, `tx_record_lossy_violated`, `list_txs_exact_partial`, `list_txs_outputs`, `list_txs_id_cut_violated`, `list_txs_single_id_violated`, `list_txs_far_end_violated`, `list_txs_null_violated`, `list_txs_kinds_violated`, `tx_type_names`, `http_answer`, `http_calls_partial`, `http_stale_violated`, `http_no_length_violated`, `http_request`, `http_request_injective`, `tor_call`, `tor_refused_violated`, `mnemonic_roundtrip`, `mnemonic_accepts_only`, `mnemonic_roundtrip_english`, `time_text`, `remote_height`, `remote_header_partial`, `remote_tip_partial`, `remote_post_partial`, `remote_start_violated`, `remote_coins_violated`, `remote_scan_violated`, `remote_time_violated`, `remote_refused_violated`, `remote_header_overflow_violated`, `owner_strangers_partial`, `owner_session_lasts_partial`, `owner_change`, `owner_login`, `owner_password_needed`, `owner_password_enough`, `owner_logout_violated`, `owner_retry_violated`, `sender_pays`, `others_get_the_amount`, `finalized_fee_partial`, `finalized_fee_low_violated`, `honest_payment_completes`, `honest_payment_admitted`, `last_hashes`, `last_kernel_hashes`, `last_answers`, `listing_pages`, `outputs_by_ids`, `listing_default_violated`, `letter_arrives_partial`, `payment_by_letters_partial`, `letter_private_partial`, `refresh_keeps_total`, `payment_received`, `payment_sent_partial`, `entire_balance_sent_partial`, `send_request_roundtrip`, `request_words`, `unnamed_tx_refused`, `send_request_reads_partial`, `estimate_reads_same`, `cancel_request_partial`, `repost_request`, `amount_text_violated`, `change_outputs_violated`, `cancel_other_violated`, `cancel_unknown_violated`, `list_outputs_exact_partial`, `listed_sums`, `listed_spendable_violated`, `path_hex_accepts_only`, `path_text_roundtrip_partial`, `path_text_violated`, `path_text_lax`, `path_hex_roundtrip`, `proof_message_roundtrip_partial`, `proof_message_wallet`, `open_keeps_tables`, `tables_apart`, `block_database_opens`, `strangers_keep_coins`, `receive_over_tor`, `finalize_over_tor`, `refused_over_tor`, `unread_changes_nothing`, `version_agreed_partial`, `version_asked`, `coinbase_request`, `version_wraps_violated`, `no_version_violated`, `coinbase_documented_violated`, `documented_options`, `command_line_ends_partial`, `ambiguous_option_hangs_violated`, `unknown_option_ignored_violated`, `shared_node_without_port_violated`, `shared_node_port_wraps_violated`, `shared_node_without_value_violated`, `snapshot_served_partial`, `served_leaves_are_old_violated`, `without_archive_none_served_violated`, `snapshot_large_cut_violated`, `snapshot_stale_refused`, `validator_iff`, `found_invalid_iff`, `round_bans_iff`, `banned_broke_rules`, `honest_never_banned`, `admitted_never_banned`, `merged_obeys`, `shown_after_views`, `chain_now_decides_partial`, `settled_for_good`, `undone_stays_received_violated`, `buffer_freed_violated`, `ordered_never_stuck`, `node_never_stuck_partial`, `whole_node_stuck_violated`, `hex_encoding`, `hex_roundtrip`, `hex_valid_iff`, `hex_valid_decodes_partial`, `hex_valid_odd_violated`, `hex_valid_odd_throws`, `hex_decode_sound`, `positions_saved`, `snapshot_taken_over_partial`, `spent_output_kept_violated`, `spent_output_kept_case_violated`, `other_output_spent_violated`, `view_right`, `block_view_total`, `block_received_partial`, `orphan_features_violated`, `closed_crash_violated`, `ordered_finishes`, `threads_end_first`, `node_stops_partial`, `stop_hangs_violated`, `served_apart_partial`, `state_asked_when`, `silent_peer_replaced_partial`, `helpful_peer_banned_violated`, `second_silent_peer_waited_for_violated`, `no_peer_then_waits_violated`, `output_record_read_back`, `output_record_roundtrip_partial`, `output_record_hardened_violated`, `output_record_lossy_violated`, `slate_context_roundtrip_partial`, `slate_context_violated`, `height_correct`, `node_height_unique`, `leaf_iff_no_children`, `family_correct`, `parent_sibling_correct`, `index_no_wrap`, `leafPos_iff_leaf`, `leafPos_increasing`, `leafPos_counts`, `leafIndex_roundtrip`, `leafIndex_roundtrip'`, `peaks_tile`, `peaks_invalid`, `append_stores_hashes`, `append_is_extension`, `kernel_data`, `root_correct`, `root_commits`, `root_historical`, `kernel_rewind`, `header_rewind`, `prune_history`, `prune_shift`, `pruned_append`, `pruned_remove`, `pruned_rewind`, `pruned_root`, `pruned_get`, `stores_compacted`, `append_only_refines_partial`, `data_file_refines`, `bitmap_refines_partial`, `bitmap_export`, `bitmap_crash_partial`, `safe_write_crash_partial`, `dma_minimum`, `dma_difficulty_partial`, `dma_step_partial`, `wtema_difficulty_partial`, `wtema_step_partial`, `wtema_collapse_violated`, `maturity_rule`, `apply_accepts_iff`, `pool_check_iff`, `wallet_mature`, `wallet_mature_iff`, `block_weight`, `transaction_weight`, `cuckatoo_accepts_iff`, `cuckaroo_accepts_iff`, `cuckarooz_accepts_iff`, `cuckaroom_accepts_iff`, `cuckarood_accepts_iff`, `header_accepts_iff`, `maximum_difficulty_spec`, `future_header_violated`, `cut_through_balance`, `aggregate_partial`, `kernel_sums_sound`, `transaction_balances`, `coinbase_balances`, `supply_apply`, `money_supply`, `rewound_books`, `genesis_books`, `snapshot_supply`, `apply_answers`, `apply_effect`, `coin_sound`, `rewind_restores`, `reachable_holds`, `roots_check`, `pool_check_mineable`, `duplicate_input_violated`, `unlisted_outputs_violated`, `chain_store_refines`, `last_agree_spec`, `linked_agree_iff`, `reorg_copies`, `work_monotone_partial`, `heavier_branch_adopted`, `fake_work_violated`, `hydrate_sound`, `hydrate_some_iff`, `hydrate_original`, `short_id`, `joint_mineable`, `conflict_admitted_violated`, `conflict_stops_relay_violated`, `balance_partition`, `spendable_is_available`, `available_mature`, `refresh_matches_chain`, `send_moves_balance`, `partial_verifies`, `exchange_completes`, `finalized_balances`, `forged_key_partial`, `deletable_iff_partial`, `forged_key_violated`, `paths_distinct_partial`, `locator_heights`, `served_headers_partial`, `prune_partial`, `prune_passes_partial`, `prune_neighbour_violated`, `prune_shutdown_violated`, `new_peer_partial`, `peers_shared`, `most_work`, `rate_exact`, `opened_welcome`, `header_read`, `lru_cache`, `fifo_cache`, `proofs_accepted_partial`, `proofs_verified_partial`, `other_proof_violated`, `state_sync_partial`, `state_sync_again`, `snapshot_validated`, `snapshot_kernel_hashes`, `orphan_pool`, `orphan_header`, `unbounded_orphans_violated`, `first_body_violated`, `startup_ends_partial`, `startup_violated`, `pow_answers_partial`, `secondary_retired`, `edge_bits_violated`, `cuckatoo_answers`, `cuckaroo_answers`, `cuckarooz_answers`, `cuckaroom_answers`, `cuckarood_hangs_violated`, `stored_header_partial`, `candidate_chain_partial`, `admitted_no_coinbase`, `admitted_pays`, `nonce_reused_violated`, `format_reads_partial`, `format_injective`, `format_violated`, `snapshot_data_violated`, `snapshot_swapped_violated`, `snapshot_extra_violated`, `snapshot_short_violated`, `header_sync_completes_partial`, `reachable_chain`, `header_sync_stuck_violated`, `header_sync_stuck_case_violated`, `header_ban_partial`, `block_requests`, `block_missing_asked`, `block_forgotten`, `block_ban_partial`, `consistent_block`, `consistent_block_accepted`, `chain_rules`, `outputs_listed`, `reachable_indexed`, `listed_iff_coin`, `restore_finds_partial`, `restore_after_reorg_violated`, `restore_discards_violated`, `restore_after_reorg_case_violated`, `restore_last_spent_violated`, `estimate_is_paid_partial`, `estimate_below_fee_violated`, `seed_opens_iff`, `seed_file_opens`, `other_password`, `password_changed`, `password_change_stop_partial`, `seed_file_safe`, `short_seed_file_violated`, `cbc_decrypts_iff`, `record_roundtrip`, `record_decrypts_iff`, `altered_record_violated`, `slate_json_roundtrip_iff_partial`, `slate_json_outcome`, `slate_from_json_no_ub`, `slate_json_violated_lock_height`, `slate_json_violated_fee`, `uuid_text_roundtrip`, `tx_json_roundtrip_iff_partial`, `kernel_json_outcome`, `tx_from_json_no_ub_partial`, `tx_json_violated_fee`, `kernel_json_violated_nrd`, `tx_json_violated_empty`, `kernel_from_json_violated_ub`, `json_number_read`, `json_number_violated`, `Verif.PoW.U128.u128_neg`, `Verif.PoW.U128.u128_order`, `Verif.PoW.U128.u128_mul`, `Verif.PoW.U128.u128_bits`, `Verif.PoW.U128.u128_divmod`, `Verif.PoW.U128.u128_div_mod`, `Verif.PoW.U128.u128_text`, `Verif.PoW.U128.u128_max_difficulty`, `Verif.PoW.U128.u128_max_difficulty_header`, `base64_roundtrip`, `base64_text`, `base64_refuses`, `session_token_roundtrip`, `session_token_injective`, `session_token_text_not_unique`, `age_stream_authentic`, `age_stream_roundtrip`, `age_roundtrip_partial`, `age_works`, `age_decrypt_authentic`, `age_decrypt_other`, `age_decrypt_defined_partial`, `age_decrypt_defined_violated`, `age_header_unchecked_violated`, `age_empty_violated`, `archive_received_exact`, `archive_received_partial`, `archive_large_violated`, `snapshot_sent`, `snapshot_transfer_partial`, `snapshot_transfer_violated`, `archive_one_at_a_time`, `archive_confined`, `archive_extracted`, `archive_content`, `snapshot_accepted_partial`, `snapshot_refused_partial`, `snapshot_refused_violated`, `snapshot_wipes_violated`, `snapshot_unsolicited_violated`, `snapshot_below_violated`, `snapshot_defined_partial`, `snapshot_defined_violated`, `segment_message_roundtrip`, `segment_memory_violated`, `segment_positions_violated`, `master_key_standard`, `derived_key_valid`, `child_data_injective`, `sibling_keys_differ`, `own_output_found`, `old_output_found`, `restore_from_seed_partial`, `empty_path_violated`, `stem_one_relay`, `relay_kept`, `broadcast_in_pool`, `embargo_partial`, `stem_not_private_violated`, `any_order_converges`, `rounds_converge`.

### Source files read into the model

For each source file the modules of the model that cite lines of it. Of these files, the functions cited are modelled; the rest is not.

* `include`: Consensus.h (Codec.Messages, Conc.Locks, P2P.Sync, PoW.Consensus, Ser.Core, Ser.Pow, Tx.Body, Tx.Sums)
* `include/API/Wallet/Foreign`: ForeignServer.h (Wallet.Addresses)
* `include/API/Wallet/Foreign/Clients`: CheckVersionClient.h (Wallet.Exchange, Wallet.Foreign); ReceiveTxClient.h (Wallet.Exchange, Wallet.Foreign)
* `include/API/Wallet/Foreign/Models`: BuildCoinbaseCriteria.h (Wallet.Foreign); BuildCoinbaseResponse.h (Wallet.Coinbase); CheckVersionResponse.h (Wallet.Foreign); FinalizeTxRequest.h (Wallet.Foreign); FinalizeTxResponse.h (Wallet.Foreign); ReceiveTxRequest.h (Wallet.Foreign); ReceiveTxResponse.h (Wallet.Foreign)
* `include/API/Wallet/Owner/Models`: CancelTxCriteria.h (Wallet.Requests); CreateWalletCriteria.h (Wallet.Names, Wallet.Owner); CreateWalletResponse.h (Wallet.Owner); DeleteWalletCriteria.h (Wallet.Names, Wallet.Owner); Errors.h (Net.RemoteNode); EstimateFeeCriteria.h (Wallet.Estimate, Wallet.Requests); FinalizeCriteria.h (Wallet.Letters); GetSeedPhraseCriteria.h (Wallet.Owner); ListTxsCriteria.h (Wallet.TxList); LoginCriteria.h (Wallet.Names, Wallet.Owner); LoginResponse.h (Wallet.Owner); ReceiveCriteria.h (Wallet.Letters); RepostTxCriteria.h (Wallet.Requests); RestoreWalletCriteria.h (Wallet.Owner); SendCriteria.h (Wallet.Estimate, Wallet.Requests); SendResponse.h (Wallet.Exchange)
* `include/BlockChain`: BlockIndex.h (Chain.Store); Chain.h (Chain.Process, Chain.Store); ChainType.h (Chain.Store)
* `include/Common`: ConcurrentQueue.h (P2P.Net); SharedQueue.h (Net.SendQueue)
* `include/Common/Util`: BitUtil.h (Codec.Slate, MMR.Index); StringUtil.h (Codec.Json, Codec.Text, Net.TorControl, Wallet.Names); ThreadUtil.h (Conc.Stop); TimeUtil.h (Codec.Time, Wallet.TxList)
* `include/Core/Enums`: Environment.h (PoW.Consensus); ProtocolVersion.h (P2P.Sync)
* `include/Core/File`: AppendOnlyFile.h (File.AppendOnly); BitmapFile.h (File.Batch, File.Bitmap, File.Crash, MMR.Pruneable); DataFile.h (File.AppendOnly, File.Batch, File.Crash, MMR.Hash)
* `include/Core/Models`: BlockHeader.h (Chain.Process, Ser.Core, Tx.TxHashSet); Features.h (Codec.Json, Ser.Core); Fee.h (Codec.Json, Ser.Core, Wallet.Payment); OutputIdentifier.h (Tx.TxHashSet); OutputLocation.h (Tx.TxHashSet); ProofOfWork.h (PoW.Difficulty, Ser.Pow); ShortId.h (Ser.Core); SpentOutput.h (Tx.TxHashSet); Transaction.h (Tx.Pool); TransactionBody.h (Tx.Pool, Tx.Sums); TransactionInput.h (Tx.Body, Tx.Pool); TransactionKernel.h (Ser.Core, Tx.Body, Tx.Pool); TransactionOutput.h (Tx.Body)
* `include/Core/Models/DTOs`: BlockWithOutputs.h (Api.Query); OutputDTO.h (Api.Query, Tx.Listing); OutputRange.h (Tx.Listing)
* `include/Core/Serialization`: Base64.h (Codec.Base64); ByteBuffer.h (P2P.Book, Ser.ByteBuffer, Ser.Core); Serializer.h (Base.Bytes, P2P.Book, Ser.ByteBuffer, Ser.Core)
* `include/Core/Traits`: Batchable.h (File.Batch); Lockable.h (Cache.BlockDB, Conc.Deadlock, Conc.Locks, File.Batch)
* `include/Core/Util`: FeeUtil.h (Wallet.Select); JsonUtil.h (Codec.Json, Net.RemoteNode, Net.Rpc, Net.Settings, Wallet.ListOutputs, Wallet.Owner); TransactionUtil.h (Tx.Body)
* `include/Core/Validation`: KernelSignatureValidator.h (Tx.KernelSigs); KernelSumValidator.h (Tx.Sums)
* `include/Crypto`: Age.h (Codec.Armor); BulletproofType.h (Codec.KeyPath); ChaChaPoly.h (Codec.Age); Hasher.h (Tx.Compact); X25519.h (Codec.Age)
* `include/Crypto/Age`: Header.h (Codec.Age); RecipientLine.h (Codec.Age)
* `include/Crypto/Models`: BigInteger.h (Api.Query, Codec.Age, Ser.Core, Wallet.Crypt, Wallet.Keys); BlindingFactor.h (Wallet.Finalize); Hash.h (MMR.Hash); ProofMessage.h (Codec.KeyPath); RangeProof.h (Ser.Core); ScryptParameters.h (Wallet.Crypt)
* `include/Net`: IPAddress.h (Codec.Messages, Net.Settings, P2P.Book); RateCounter.h (P2P.Net); SocketAddress.h (Codec.Messages)
* `include/Net/Clients`: Client.h (Net.HttpClient, Net.TorControl)
* `include/Net/Clients/HTTP`: HTTP.h (Net.HttpClient); HTTPClient.h (Net.HttpClient)
* `include/Net/Clients/RPC`: RPC.h (Net.RemoteNode, Net.Rpc, Wallet.Foreign)
* `include/Net/Clients/SOCKS`: SOCKSClient.h (Net.HttpClient)
* `include/Net/Connections`: HttpConnection.h (Net.RemoteNode)
* `include/Net/Servers/RPC`: RPCMethod.h (Net.Rpc); RPCServer.h (Net.Rpc)
* `include/Net/Tor`: TorAddress.h (Codec.Onion); TorProcess.h (Net.TorControl, Wallet.Addresses)
* `include/P2P`: BanReason.h (P2P.Book); Capabilities.h (Codec.Messages, P2P.Peers); Common.h (Codec.Messages, P2P.Locator, P2P.Peers, P2P.Sync, PoW.Cuckoo, PoW.Sip); ConnectedPeer.h (P2P.Peers); Peer.h (P2P.Book, P2P.Peers); SyncStatus.h (P2P.StateRun)
* `include/PMMR`: TxHashSetManager.h (File.Batch)
* `include/PMMR/Common`: BitmapSegment.h (Codec.Segment); Index.h (MMR.Index); LeafIndex.h (MMR.Index); Segment.h (Codec.Segment); SegmentId.h (Codec.Messages, Codec.Segment); SegmentProof.h (Codec.Segment)
* `include/TxPool`: DandelionStatus.h (Tx.Pool); PoolType.h (Tx.Pool); TransactionPool.h (Tx.Pool)
* `include/Wallet`: KeyChainPath.h (Codec.KeyPath); PrivateExtKey.h (Wallet.Keys); SessionToken.h (Codec.Base64, Wallet.Session); Wallet.h (Wallet.Addresses); WalletTx.h (Wallet.DB, Wallet.TxList); WalletTxType.h (Wallet.DB, Wallet.TxList); WalletUtil.h (Wallet.DB)
* `include/Wallet/Enums`: OutputStatus.h (Wallet.ListOutputs, Wallet.Select); PostMethod.h (Wallet.Exchange, Wallet.Requests); SelectionStrategy.h (Wallet.Requests, Wallet.Select)
* `include/Wallet/Models/DTOs`: FeeEstimateDTO.h (Wallet.Estimate); PostMethodDTO.h (Wallet.Requests); SelectionStrategyDTO.h (Wallet.Requests); WalletBalanceDTO.h (Wallet.Amount, Wallet.DB, Wallet.ListOutputs); WalletOutputDTO.h (Wallet.ListOutputs, Wallet.TxList); WalletTxDTO.h (Wallet.TxList)
* `include/Wallet/Models/Slate`: Slate.h (Codec.Slate, Wallet.Exchange, Wallet.PayProof, Wallet.Payment); SlateCommitment.h (Codec.Json, Codec.Slate); SlateFeatureArgs.h (Codec.Json, Codec.Slate); SlatePaymentProof.h (Codec.Json, Codec.Slate, Wallet.PayProof); SlateSignature.h (Codec.Json, Codec.Slate, Wallet.Sign); SlateStage.h (Codec.Json, Codec.Slate)
* `include/Wallet/Models/Slatepack`: Armor.h (Codec.Armor, Codec.Text, Wallet.Letters); Bech32Address.h (Codec.Bech32); SlatepackAddress.h (Codec.Armor, Codec.Onion); SlatepackMessage.h (Codec.Armor)
* `include/Wallet/WalletDB/Models`: EncryptedSeed.h (Wallet.Crypt); OutputDataEntity.h (Codec.WalletRecord, Wallet.Finalize); SlateContextEntity.h (Codec.WalletRecord, Wallet.DB, Wallet.Finalize)
* `src/API/Node`: NodeServer.cpp (Net.RemoteNode)
* `src/API/Node/Handlers`: GetBlockHandler.h (Api.Query); GetConfigHandler.h (Net.Settings); GetHeaderHandler.h (Api.Query, Net.RemoteNode); GetTipHandler.h (Net.RemoteNode); GetVersionHandler.h (Net.RemoteNode); PushTransactionHandler.h (Net.RemoteNode); UpdateConfigHandler.h (Net.Settings)
* `src/API/Wallet/Foreign`: ForeignServer.cpp (Wallet.Addresses, Wallet.Foreign, Wallet.History)
* `src/API/Wallet/Foreign/Handlers`: BuildCoinbaseHandler.h (Wallet.Foreign); FinalizeTxHandler.h (Wallet.Exchange, Wallet.Foreign); ReceiveTxHandler.h (Wallet.Addresses, Wallet.Foreign)
* `src/API/Wallet/Owner`: OwnerServer.cpp (Wallet.Owner)
* `src/API/Wallet/Owner/Handlers`: CancelTxHandler.h (Wallet.Owner, Wallet.Requests); ChangePasswordHandler.h (Wallet.Names); CreateWalletHandler.h (Wallet.Names, Wallet.Owner); DeleteWalletHandler.h (Wallet.Names, Wallet.Owner); FinalizeHandler.h (Wallet.Exchange, Wallet.Letters, Wallet.Owner); GetBalanceHandler.h (Wallet.ListOutputs); GetNewWalletAddressHandler.h (Wallet.Addresses, Wallet.Owner); GetWalletSeedHandler.h (Wallet.Owner); ListOutputsHandler.h (Wallet.ListOutputs); ListTxsHandler.h (Wallet.TxList); ListWalletsHandler.h (Wallet.Owner); LoginHandler.h (Wallet.Names, Wallet.Owner); LogoutHandler.h (Wallet.Owner); ReceiveHandler.h (Wallet.Letters, Wallet.Owner); RepostTxHandler.h (Wallet.Exchange, Wallet.Requests); RestoreWalletHandler.h (Wallet.Owner); RetryTorHandler.h (Wallet.Addresses, Wallet.Owner); SendHandler.h (Wallet.Exchange, Wallet.Owner, Wallet.PayProof); UpdateTorConfigHandler.h (Net.Torrc)
* `src/BlockChain`: BlockChainImpl.cpp (Api.Query, Chain.Process, Chain.Resync, Conc.Deadlock, Conc.Locks, P2P.Dandelion, P2P.Net, P2P.Serve, P2P.TxBan); BlockHydrator.cpp (Tx.Compact); Chain.cpp (Api.Query, Chain.Process, Chain.Store, Conc.Deadlock, File.Batch); ChainResyncer.cpp (Chain.Resync, Conc.Deadlock); ChainState.cpp (Api.Query, Chain.Process, Chain.Resync, Conc.Deadlock, File.Batch, File.Crash, P2P.BlockSync, P2P.Locator, Tx.PoolChain, Tx.Sums); ChainState.h (Api.Query, Chain.Process, Conc.Deadlock, File.Batch); ChainStore.cpp (Chain.Resync, Chain.Store, File.Batch, File.Crash, P2P.Archive); ChainStore.h (Api.Query, Chain.Store); CoinView.cpp (Chain.CoinView, Conc.Deadlock); CompactBlockFactory.cpp (Tx.Compact)
* `src/BlockChain/OrphanPool`: Orphan.h (Chain.Orphans); OrphanPool.cpp (Chain.Orphans, Chain.Process); OrphanPool.h (Chain.Orphans)
* `src/BlockChain/Processors`: BlockHeaderProcessor.cpp (Chain.Process, Conc.Deadlock); BlockProcessor.cpp (Chain.Process, Chain.Resync, Conc.Deadlock, P2P.BlockPipe, Tx.PoolChain, Tx.Sums, Tx.TxHashSetLemmas); TxHashSetProcessor.cpp (Chain.CoinView, Conc.Deadlock, P2P.Archive)
* `src/BlockChain/Validators`: BlockHeaderValidator.cpp (PoW.Difficulty); BlockValidator.cpp (Tx.BlockRules, Tx.Body, Tx.Sums)
* `src/Common/Util`: FileUtil.cpp (File.Crash, P2P.Pack, P2P.Serve, Wallet.Names); HexUtil.cpp (Codec.Hex)
* `src/Core`: Config.cpp (Net.Settings); Global.cpp (Net.Settings)
* `src/Core/Config`: DandelionConfig.h (Net.Settings); NodeConfig.h (Net.Settings); P2PConfig.h (Net.Settings); TorConfig.h (Net.Settings, Net.Torrc); WalletConfig.h (Net.Settings)
* `src/Core/File`: AppendOnlyFile.cpp (File.AppendOnly, File.Crash, MMR.Hash, Tx.Sums); MappedFile_Nix.cpp (File.AppendOnly, File.Crash)
* `src/Core/Models`: BlockHeader.cpp (Net.RemoteNode, Ser.Core); CompactBlock.cpp (Ser.Core); FullBlock.cpp (Chain.CoinView, Ser.Core); OutputIdentifier.cpp (Ser.Core, Tx.TxHashSet); ProofOfWork.cpp (Ser.Pow); ShortId.cpp (Ser.Core, Tx.Compact); Transaction.cpp (Chain.CoinView, Codec.Json, Ser.Core, Tx.Pool); TransactionBody.cpp (Chain.CoinView, Codec.Json, Ser.Core, Tx.Body); TransactionInput.cpp (Chain.CoinView, Codec.Json, Ser.Core); TransactionKernel.cpp (Codec.Json, Ser.Core, Tx.KernelSigs, Tx.Sums, Wallet.Finalize); TransactionOutput.cpp (Codec.Json, Ser.Core)
* `src/Core/Serialization`: Base58.cpp (Codec.Base58, Codec.Text)
* `src/Core/Validation`: TransactionValidator.cpp (Tx.Body, Tx.Pool, Tx.Sums); TxBodyValidator.cpp (Tx.Body)
* `src/Crypto`: AES256.cpp (Wallet.Crypt); Age.cpp (Codec.Age); AggSig.cpp (Codec.Slate, Tx.KernelSigs, Wallet.Coinbase, Wallet.Sign); BulletProofsCache.h (Cache.Proofs); Bulletproofs.cpp (Cache.Proofs, Wallet.Keys); Crypto.cpp (Codec.Slate, Tx.Sums, Wallet.Keys, Wallet.Payment, Wallet.Sign); ED25519.cpp (Codec.Armor, Codec.Onion); Hasher.cpp (PoW.Sip); KDF.cpp (Codec.Age, Wallet.Crypt); Pedersen.cpp (Tx.Sums, Wallet.Keys, Wallet.PayProof, Wallet.Payment); PublicKeys.cpp (Wallet.Sign)
* `src/Crypto/ThirdParty`: siphash.h (PoW.Sip)
* `src/Database`: BlockDBImpl.cpp (Cache.BlockDB, Chain.OpenDB, Chain.Process, Chain.Resync, File.Batch, Tx.TxHashSet); BlockDBImpl.h (Cache.BlockDB); PeerDBImpl.cpp (P2P.Book); PeerDBImpl.h (P2P.Book)
* `src/Database/RocksDB`: RocksDB.h (Cache.BlockDB, Chain.OpenDB, File.Batch, File.Crash); RocksDBFactory.h (Chain.OpenDB)
* `src/Net`: Socket.cpp (Net.SendQueue, P2P.Archive)
* `src/Net/Tor`: TorAddressParser.cpp (Codec.Onion); TorControl.cpp (Net.TorControl, Wallet.Addresses); TorControlClient.cpp (Net.TorControl); TorProcess.cpp (Net.TorControl, Wallet.Addresses, Wallet.Exchange)
* `src/Net/Util`: HTTPUtil.cpp (Net.Rpc)
* `src/P2P`: BlockLocator.cpp (P2P.Locator); Connection.cpp (Codec.Messages, Conc.Deadlock, Conc.Locks, Net.SendQueue, P2P.Archive, P2P.Book, P2P.Peers, P2P.Serve); Connection.h (Conc.Deadlock, Conc.Locks, P2P.Peers, P2P.Serve); ConnectionManager.cpp (Conc.Deadlock, Conc.Stop, P2P.HeaderSync, P2P.Peers, P2P.StateRun); ConnectionManager.h (Conc.Deadlock); Dandelion.cpp (Conc.Deadlock, Conc.Stop, P2P.Dandelion); Dandelion.h (P2P.Dandelion); MessageProcessor.cpp (Codec.Messages, Codec.Segment, Conc.Locks, P2P.Book); P2PServerImpl.cpp (Conc.Stop, P2P.Book)
* `src/P2P/Messages`: BanReasonMessage.h (Codec.Messages); BlockMessage.h (Codec.Messages); CompactBlockMessage.h (Codec.Messages); ErrorMessage.h (Codec.Messages); GetBlockMessage.h (Codec.Messages); GetCompactBlockMessage.h (Codec.Messages); GetHeadersMessage.h (Codec.Messages); GetPeerAddressesMessage.h (Codec.Messages); GetTransactionMessage.h (Codec.Messages); HandMessage.h (Codec.Messages); HeaderMessage.h (Codec.Messages); HeadersMessage.h (Codec.Messages); Message.h (Codec.Messages); MessageHeader.h (Codec.Messages); MessageTypes.h (Codec.Messages, Codec.Segment); PeerAddressesMessage.h (Codec.Messages); PingMessage.h (Codec.Messages); PongMessage.h (Codec.Messages); SegmentRequestMessage.h (Codec.Messages); SegmentResponseMessage.h (Codec.Segment); ShakeMessage.h (Codec.Messages); StemTransactionMessage.h (Codec.Messages); TransactionKernelMessage.h (Codec.Messages); TransactionMessage.h (Codec.Messages); TxHashSetArchiveMessage.h (Codec.Messages); TxHashSetRequestMessage.h (Codec.Messages)
* `src/P2P/Pipeline`: BlockPipe.cpp (Conc.Stop, P2P.BlockPipe); BlockPipe.h (P2P.BlockPipe); Pipeline.h (Conc.Stop); TransactionPipe.cpp (Conc.Stop, P2P.Net, P2P.TxBan); TransactionPipe.h (P2P.Net); TxHashSetPipe.cpp (Conc.Stop, P2P.Archive, P2P.Serve, P2P.StateRun)
* `src/P2P/Seed`: HandShake.cpp (Codec.Messages, P2P.Book, P2P.Sync); PeerManager.cpp (P2P.Book, P2P.Peers); PeerManager.h (P2P.Book, P2P.Peers); Seeder.cpp (Conc.Stop, Net.Settings, P2P.Book, P2P.Net); Seeder.h (Conc.Stop)
* `src/P2P/Sync`: BlockSyncer.cpp (P2P.BlockSync); BlockSyncer.h (P2P.BlockSync); HeaderSyncer.cpp (P2P.HeaderSync); HeaderSyncer.h (P2P.HeaderSync); StateSyncer.cpp (P2P.StateRun, P2P.Sync); StateSyncer.h (P2P.StateRun, P2P.Sync); Syncer.cpp (Conc.Stop, P2P.StateRun, P2P.Sync)
* `src/PMMR`: HeaderMMRImpl.cpp (File.Batch, MMR.Hash); HeaderMMRImpl.h (Conc.Deadlock, File.Batch); KernelMMR.cpp (Api.State, File.Crash, MMR.Hash, Tx.Sums); KernelMMR.h (MMR.Hash, Tx.Snapshot); OutputPMMR.h (P2P.Pack); RangeProofPMMR.h (P2P.Pack); TxHashSetImpl.cpp (Chain.CoinView, File.Crash, MMR.Hash, Tx.Listing, Tx.SavePos, Tx.TxHashSet); TxHashSetImpl.h (Tx.TxHashSet); TxHashSetManager.cpp (P2P.Archive, P2P.Pack, P2P.Serve); TxHashSetValidator.cpp (Tx.Snapshot, Tx.Sums)
* `src/PMMR/Common`: Index.cpp (MMR.Index); LeafSet.h (Tx.TxHashSet); MMRHashUtil.cpp (Api.State, MMR.Hash); MMRUtil.cpp (MMR.Index); PruneList.cpp (MMR.Prune); PruneList.h (MMR.Prune); PruneableMMR.h (Api.State, File.Batch, File.Crash, MMR.Pruneable, P2P.Pack)
* `src/PMMR/Zip`: TxHashSetZip.cpp (P2P.Archive); ZipFile.cpp (P2P.Archive); Zipper.cpp (P2P.Pack, P2P.Serve)
* `src/PoW`: Common.h (Codec.Messages, P2P.Locator, P2P.Peers, P2P.Sync, PoW.Cuckoo, PoW.Sip); Cuckaroo.cpp (PoW.Cuckoo, PoW.Difficulty, PoW.Sip); Cuckarood.cpp (PoW.Cuckoo, PoW.Difficulty, PoW.Sip); Cuckaroom.cpp (PoW.Cuckoo, PoW.Difficulty, PoW.Sip); Cuckarooz.cpp (PoW.Cuckoo, PoW.Difficulty, PoW.Sip); Cuckatoo.cpp (PoW.Cuckoo, PoW.Difficulty, PoW.Sip); DifficultyCalculator.cpp (PoW.Difficulty); DifficultyLoader.cpp (PoW.Difficulty); HeaderInfo.h (PoW.Difficulty); PoWValidator.cpp (PoW.Difficulty, PoW.Uint128); uint128.cpp (PoW.Uint128); uint128.h (PoW.Uint128)
* `src/Server`: ketopt.h (Api.CmdLine); opt.h (Api.CmdLine)
* `src/Server/Node/API`: BlockAPI.cpp (Api.Query); ChainAPI.cpp (Api.Query, Api.State, Conc.Deadlock); HeaderAPI.cpp (Api.Query); PeersAPI.cpp (P2P.Book); ServerAPI.cpp (P2P.Book); TxHashSetAPI.cpp (Api.State, Conc.Deadlock)
* `src/Server/Node/NodeClients`: DefaultNodeClient.h (Conc.Deadlock, Wallet.Restore); RPCNodeClient.h (Net.RemoteNode, Wallet.Exchange)
* `src/TxPool`: Pool.cpp (Tx.Compact, Tx.Pool, Tx.PoolChain); TransactionPoolImpl.cpp (Conc.Deadlock, Tx.Pool, Tx.PoolChain); TransactionPoolImpl.h (Tx.Pool); TxPoolEntry.h (Tx.Pool); ValidTransactionFinder.cpp (Tx.Pool)
* `src/Wallet`: CancelTx.cpp (Wallet.DB); ForeignController.cpp (Wallet.Addresses, Wallet.Session); LoggedInSession.h (Wallet.Addresses, Wallet.Session); OutputRestorer.cpp (Wallet.Keys, Wallet.Restore); SessionManager.cpp (Wallet.Addresses, Wallet.Crypt, Wallet.Names, Wallet.Owner, Wallet.Schema, Wallet.Session); SessionManager.h (Wallet.Session); Wallet.cpp (Wallet.Addresses, Wallet.Coinbase, Wallet.DB, Wallet.Estimate, Wallet.Keys, Wallet.Letters, Wallet.ListOutputs); WalletImpl.cpp (Wallet.Addresses, Wallet.Coinbase, Wallet.DB, Wallet.Keys, Wallet.PayProof, Wallet.Schema); WalletImpl.h (Wallet.Addresses, Wallet.PayProof); WalletManagerImpl.cpp (Wallet.Addresses, Wallet.Crypt, Wallet.Estimate, Wallet.Exchange, Wallet.History, Wallet.Names, Wallet.Owner, Wallet.Session); WalletRefresher.cpp (Wallet.DB); WalletTxLoader.cpp (Wallet.TxList)
* `src/Wallet/Keychain`: KeyChain.cpp (Wallet.Keys, Wallet.PayProof); KeyDefs.h (Wallet.Keys); KeyGenerator.cpp (Wallet.Keys); Mnemonic.cpp (Codec.Mnemonic); SeedEncrypter.cpp (Wallet.Crypt, Wallet.Names); WordList.h (Codec.WordList)
* `src/Wallet/Models/Slate`: Slate.cpp (Codec.Json, Codec.Slate, Wallet.Exchange, Wallet.Sign)
* `src/Wallet/SlateBuilder`: CoinSelection.cpp (Wallet.Select); FinalizeSlateBuilder.cpp (Wallet.DB, Wallet.Exchange, Wallet.Finalize, Wallet.PayProof, Wallet.Sign); OutputBuilder.h (Wallet.DB, Wallet.Select); ReceiveSlateBuilder.cpp (Wallet.DB, Wallet.PayProof, Wallet.Payment, Wallet.Sign); SendSlateBuilder.cpp (Wallet.DB, Wallet.PayProof, Wallet.Payment, Wallet.Select); SignatureUtil.h (Wallet.Sign); SlateUtil.h (Wallet.Sign); TransactionBuilder.h (Wallet.Finalize)
* `src/Wallet/WalletDB`: WalletEncryptionUtil.cpp (Wallet.Crypt)
* `src/Wallet/WalletDB/Sqlite`: Schema.h (Wallet.Schema); SqliteDB.cpp (Wallet.DB); SqliteStore.cpp (Wallet.Crypt, Wallet.DB, Wallet.Names, Wallet.Owner, Wallet.Schema, Wallet.Session); SqliteTransaction.h (File.Batch, Wallet.DB, Wallet.History, Wallet.Schema); WalletSqlite.cpp (File.Batch, Wallet.DB, Wallet.Schema)
* `src/Wallet/WalletDB/Sqlite/Tables`: AccountsTable.cpp (Wallet.Addresses, Wallet.DB, Wallet.Schema); MetadataTable.cpp (Wallet.DB, Wallet.Schema); OutputsTable.cpp (Codec.WalletRecord, Wallet.DB, Wallet.Schema); SlateContextTable.cpp (Codec.WalletRecord, Wallet.DB, Wallet.Schema); SlateTable.cpp (Wallet.DB, Wallet.Schema); TransactionsTable.cpp (Wallet.DB, Wallet.Schema); VersionTable.cpp (Wallet.Schema)

### Source files not modelled

* `include`: GrinVersion.h
* `include/API/Wallet/Owner/Utils`: SlatepackDecryptor.h
* `include/BlockChain`: BadBlocks.h, BlockChain.h, BlockChainStatus.h, ICoinView.h
* `include/Common`: ChildProcess.h, Compat.h, GrinStr.h, Logger.h, Macros.h, Math.h, Secure.h
* `include/Common/Util`: FunctionalUtil.h
* `include/Core`: Context.h, Genesis.h
* `include/Core/Exceptions`: APIException.h, BadDataException.h, BlockChainException.h, CryptoException.h, DeserializationException.h, FileException.h, GrinException.h, ProtocolException.h, TxHashSetException.h, UnimplementedException.h, WalletException.h
* `include/Core/File`: File.h, FileRemover.h, MappedFile.h
* `include/Core/Models`: BlockSums.h, TxHashSetRoots.h
* `include/Core/Models/DTOs`: BlockIdentifier.h
* `include/Core/Serialization`: EndianHelper.h, Json.h
* `include/Core/Traits`: Committed.h, Hashable.h, Jsonable.h, Printable.h, Serializable.h
* `include/Crypto`: CSPRNG.h, Curve25519.h
* `include/Crypto/Models`: Commitment.h, PublicKey.h, RewoundProof.h, SecretKey.h, Signature.h, ed25519_keypair.h, ed25519_public_key.h, ed25519_secret_key.h, ed25519_signature.h
* `include/Database`: BlockDb.h, Database.h, DatabaseException.h, PeerDB.h
* `include/Net`: SocketException.h
* `include/Net/Clients/HTTP`: HTTPException.h
* `include/Net/Clients/RPC`: RPCClient.h, RPCException.h
* `include/Net/Clients/SOCKS`: SOCKS.h, SOCKSException.h
* `include/Net/Servers`: Server.h
* `include/Net/Tor`: TorConnection.h, TorException.h, TorStatus.h
* `include/P2P`: Direction.h, P2PServer.h
* `include/PMMR`: HeaderMMR.h, TxHashSet.h
* `include/Wallet`: ExtendedKey.h, NodeClient.h, PublicExtKey.h, WalletManager.h
* `include/Wallet/Exceptions`: InsufficientFundsException.h, InvalidMnemonicException.h, KeyChainException.h, SessionTokenException.h
* `include/Wallet/Models/DTOs`: BlockInfoDTO.h, PaymentProofDTO.h, WalletSummaryDTO.h
* `include/Wallet/WalletDB`: WalletDB.h, WalletStore.h, WalletStoreException.h
* `src/API/Wallet/Foreign/Handlers`: CheckVersionHandler.h
* `src/API/Wallet/Owner/Handlers`: AddressInfoHandler.h, EstimateFeeHandler.h, GetTorConfigHandler.h, GetWalletAddressHandler.h, ScanForOutputsHandler.h
* `src/Common`: ChildProcess.cpp, GrinStr.cpp, Logger.cpp, Secure.cpp
* `src/Core/Config`: ConfigProps.h
* `src/Core/File`: MappedFile_Win.cpp, MappedFile_Win.h
* `src/Core/Traits`: Serializable.cpp
* `src/Crypto`: CSPRNG.cpp, Context.h, HMAC.h, SwitchGeneratorPoint.h
* `src/Database`: DatabaseImpl.cpp, DatabaseImpl.h
* `src/Database/RocksDB`: DBEntry.h, RocksDBTable.h
* `src/Net/Servers`: Server.cpp
* `src/Net/Tor`: TorConnection.cpp
* `src/P2P/Messages`: RawMessage.h
* `src/P2P/Seed`: DNSSeeder.cpp, DNSSeeder.h
* `src/PMMR/Common`: HashFile.h, MMR.h
* `src/PoW`: portable_endian.h, siphash.hpp
* `src/Server`: Main.cpp, console.h
* `src/Server/Node`: Node.cpp, Node.h, NodeContext.h, NodeRestServer.cpp, NodeRestServer.h
* `src/Server/Node/NodeClients`: RustNodeClient.h
* `src/Server/Wallet`: WalletDaemon.cpp, WalletDaemon.h
* `src/Wallet/SlateBuilder`: SigningKeys.h
* `src/Wallet/WalletDB`: UserMetadata.h, WalletDBImpl.cpp
