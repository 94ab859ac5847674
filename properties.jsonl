{"id": "C01", "title": "Buffer reads never leave the buffer", "statement": "Every read of a ByteBuffer (fixed-width integers, fixed vectors, length-prefixed strings) either throws a deserialization exception or returns exactly the requested number of bytes that were in the supplied buffer at the cursor and advances the cursor by that number; it never reads outside the buffer, whatever length an attacker encodes.", "quantifier": "every buffer content, every cursor position, every requested or encoded 64-bit length", "why_tests_cant": "A test exercises chosen lengths; the failing region is a handful of values next to 2^64 where index+length wraps.", "anchors": ["include/Core/Serialization/ByteBuffer.h:ByteBuffer::ReadVarStr", "include/Core/Serialization/ByteBuffer.h:ByteBuffer::ReadVector", "include/Core/Serialization/ByteBuffer.h:ByteBuffer::ReadBigEndian"]}
{"id": "C02", "title": "Integer and string encodings round-trip", "statement": "Whatever a Serializer appends (unsigned integers of 1,2,4,8 bytes, length-prefixed strings, fixed-size byte vectors) is read back unchanged by the matching ByteBuffer reader, at any offset of any surrounding data, leaving the cursor just after it.", "quantifier": "all values in range, all surrounding byte strings", "why_tests_cant": "2^64 integers and unbounded strings; tests sample a few.", "anchors": ["include/Core/Serialization/Serializer.h:Serializer", "include/Core/Serialization/ByteBuffer.h:ByteBuffer", "include/Core/Serialization/EndianHelper.h"]}
{"id": "C03", "title": "Transactions, blocks and headers round-trip on the wire", "statement": "Serializing a well-formed input, output, kernel, transaction body, transaction, block header, full block or compact block at any protocol version and deserializing it at the same version yields an equal object and consumes exactly the bytes written.", "quantifier": "every well-formed object, every number of inputs/outputs/kernels, protocol versions V1, V2, V3, V1000", "why_tests_cant": "Objects have unboundedly many shapes and the three versions have different layouts.", "anchors": ["src/Core/Models/TransactionInput.cpp:TransactionInput::Serialize", "src/Core/Models/TransactionOutput.cpp:TransactionOutput::Serialize", "src/Core/Models/TransactionKernel.cpp:TransactionKernel::Serialize", "src/Core/Models/TransactionBody.cpp:TransactionBody::Serialize", "src/Core/Models/Transaction.cpp:Transaction::Serialize", "src/Core/Models/BlockHeader.cpp:BlockHeader::Serialize", "src/Core/Models/FullBlock.cpp:FullBlock::Serialize", "src/Core/Models/CompactBlock.cpp:CompactBlock::Serialize"]}
{"id": "C04", "title": "Proof-of-work nonces round-trip through bit packing", "statement": "For every edge-bits value accepted by the deserializer (1..63) and every 42-nonce proof whose nonces fit in that many bits, packing the nonces and unpacking them returns the same nonces, and packing occupies ceil(42*edge_bits/8) bytes.", "quantifier": "all edge_bits in 1..63, all nonce lists with nonces < 2^edge_bits", "why_tests_cant": "The bit offsets cross byte and word boundaries differently for each edge_bits; the value space is astronomically large.", "anchors": ["src/Core/Models/ProofOfWork.cpp:ProofOfWork::SerializeCycle", "src/Core/Models/ProofOfWork.cpp:ProofOfWork::DeserializeProofNonces"]}
{"id": "C05", "title": "One header content has one hash", "statement": "Two byte strings that the header deserializer accepts and that decode to the same field values produce headers with the same hash (a header's identity depends only on its content).", "quantifier": "all pairs of accepted encodings", "why_tests_cant": "A malleability witness lives in padding bits no honest serializer sets, so tests built from serialized headers never meet it.", "anchors": ["src/Core/Models/ProofOfWork.cpp:ProofOfWork::Deserialize", "src/Core/Models/BlockHeader.cpp:BlockHeader::GetHash"]}
{"id": "C06", "title": "Fees survive serialization", "statement": "A Fee (shift, amount) written to the wire and read back is unchanged, and a Fee written to JSON and read back is unchanged.", "quantifier": "every shift 0..255 and every 64-bit amount", "why_tests_cant": "The lossy region (amount >= 2^40, shift >= 16, JSON with nonzero shift) is outside typical test data.", "anchors": ["include/Core/Models/Fee.h:Fee::Serialize", "include/Core/Models/Fee.h:Fee::Deserialize", "include/Core/Models/Fee.h:Fee::ToJSON", "include/Core/Models/Fee.h:Fee::FromJSON"]}
{"id": "C07", "title": "Peer-to-peer messages round-trip and are length-bounded", "statement": "Each P2P payload (hand, shake, ping/pong, header requests, block requests, peer address lists, tx-hash-set requests, ban reasons) deserializes to what was serialized; a message header is accepted only with this network's magic bytes and a declared length at most four times the documented maximum for its type.", "quantifier": "all payload values and all 11-byte headers", "why_tests_cant": "Unbounded lists and all 2^88 headers.", "anchors": ["src/P2P/Messages/MessageHeader.h:MessageHeader::Deserialize", "src/P2P/Messages/MessageTypes.h:GetMaximumSize", "src/P2P/Messages/HandMessage.h", "src/P2P/Messages/GetHeadersMessage.h", "src/P2P/Messages/PeerAddressesMessage.h"]}
{"id": "C08", "title": "Slates round-trip in binary form", "statement": "Any well-formed wallet slate serialized to the compact binary (V4/V5) form and read back equals the original in every field, for every combination of omitted optional fields.", "quantifier": "every slate: all 2^5 presence patterns of optional fields, any number of signatures (<=255) and commitments (<=65535), with or without payment proof", "why_tests_cant": "Presence bitmaps multiply the layouts; unbounded component lists.", "anchors": ["src/Wallet/Models/Slate/Slate.cpp:Slate::Serialize", "src/Wallet/Models/Slate/Slate.cpp:Slate::Deserialize"]}
{"id": "C09", "title": "Slatepack armor decodes to what was encoded", "statement": "Armoring any slatepack bytes and unpacking the armored text returns the same bytes.", "quantifier": "every byte string, every checksum value", "why_tests_cant": "Failure depends on the value of a hash prefix (about 1 in 256 messages).", "anchors": ["include/Wallet/Models/Slatepack/Armor.h:Armor::Pack", "include/Wallet/Models/Slatepack/Armor.h:Armor::Unpack", "src/Core/Serialization/Base58.cpp:SimpleEncodeCheck", "src/Core/Serialization/Base58.cpp:SimpleDecodeCheck"]}
{"id": "C10", "title": "Base58 encoding is invertible", "statement": "Base58-decoding the Base58 encoding of any byte string returns that byte string, including any number of leading zero bytes.", "quantifier": "every byte string of any length", "why_tests_cant": "Carry propagation and buffer sizing must hold at every length.", "anchors": ["src/Core/Serialization/Base58.cpp:Encode", "src/Core/Serialization/Base58.cpp:Decode"]}
{"id": "C11", "title": "Bech32 addresses round-trip and detect their own checksum", "statement": "Converting address bytes to 5-bit groups and back returns the bytes; an encoded bech32 string always passes the decoder's checksum and decodes to the same prefix and data.", "quantifier": "every byte string and every lower-case human-readable prefix", "why_tests_cant": "The checksum identity is algebraic over GF(2); tests sample vectors only.", "anchors": ["include/Wallet/Models/Slatepack/Bech32Address.h", "deps/bitcoin/src/bech32.cpp"]}
{"id": "C12", "title": "Seed phrases restore the seed", "statement": "Converting entropy of a supported length to mnemonic words and the words back to entropy returns the same entropy.", "quantifier": "every entropy value of 16,20,24,28 or 32 bytes, any word list without duplicates", "why_tests_cant": "2^256 seeds; each one guards money.", "anchors": ["src/Wallet/Keychain/Mnemonic.cpp:Mnemonic::CreateMnemonic", "src/Wallet/Keychain/Mnemonic.cpp:Mnemonic::ToEntropy"]}
{"id": "C13", "title": "Key-chain paths round-trip as text and in range-proof messages", "statement": "Formatting a key path and parsing it, and embedding the path in an output's range-proof message and extracting it on restore, return the same path.", "quantifier": "every path of up to four 32-bit indices, both bulletproof types", "why_tests_cant": "Boundary values (indices >= 2^31, lengths other than 3) are not covered by sampled paths, yet lose funds on restore.", "anchors": ["include/Wallet/KeyChainPath.h:KeyChainPath::Format", "include/Wallet/KeyChainPath.h:KeyChainPath::FromString", "include/Crypto/Models/ProofMessage.h:ProofMessage::FromKeyIndices", "include/Crypto/Models/ProofMessage.h:ProofMessage::ToKeyIndices"]}
{"id": "C14", "title": "Hex encoding round-trips", "statement": "Hex-decoding the hex encoding of any bytes returns them, and every string the validity check accepts decodes without error.", "quantifier": "every byte string; every character string", "why_tests_cant": "Infinite domain.", "anchors": ["src/Common/Util/HexUtil.cpp:HexUtil::FromHex", "src/Common/Util/HexUtil.cpp:HexUtil::ConvertToHex", "src/Common/Util/HexUtil.cpp:HexUtil::IsValidHex"]}
{"id": "C15", "title": "Wallet database records round-trip", "statement": "An output record or a transaction context stored by the wallet and read back is unchanged, including contexts holding several outputs.", "quantifier": "every record, every optional-field pattern, any number of outputs per context", "why_tests_cant": "A trailing optional field is ambiguous only when records are concatenated in particular patterns.", "anchors": ["include/Wallet/WalletDB/Models/OutputDataEntity.h", "include/Wallet/WalletDB/Models/SlateContextEntity.h"]}
{"id": "C16", "title": "MMR index arithmetic matches the tree", "statement": "For every position of a Merkle mountain range, the computed height, parent, sibling and children are those of the binary tree laid out in post-order: the parent of both children is the node, siblings are mutual, a node's height is one more than its children's, and height zero holds exactly at leaves.", "quantifier": "all positions (no bound on depth)", "why_tests_cant": "Off-by-one errors surface only at particular bit patterns of arbitrarily large positions.", "anchors": ["src/PMMR/Common/Index.cpp:Index::CalculateHeight", "include/PMMR/Common/Index.h:Index::GetParent", "include/PMMR/Common/Index.h:Index::GetSibling"]}
{"id": "C17", "title": "Leaf numbers and MMR positions correspond one to one", "statement": "The n-th leaf has position 2n - popcount(n); this map is strictly increasing, hits exactly the positions of height zero, and the position-to-leaf-number computation inverts it.", "quantifier": "all leaf numbers n", "why_tests_cant": "Unbounded domain, bit-pattern-dependent.", "anchors": ["include/PMMR/Common/LeafIndex.h:LeafIndex::At", "src/PMMR/Common/Index.cpp:Index::CalculateLeafIndex"]}
{"id": "C18", "title": "Peaks partition the MMR", "statement": "For a size that is reachable by appending leaves, the peak list consists of the roots of perfect trees of strictly decreasing height that together cover exactly the positions below the size; for any other size the list is empty.", "quantifier": "all sizes", "why_tests_cant": "Unbounded domain.", "anchors": ["src/PMMR/Common/MMRUtil.cpp:MMRUtil::GetPeakIndices"]}
{"id": "C19", "title": "Appending to an MMR stores every node hash at its position", "statement": "After appending any sequence of leaves, the hash file holds at each position the hash of the subtree rooted there, and the size equals that of the mountain range of the number of leaves.", "quantifier": "all leaf sequences", "why_tests_cant": "Induction over arbitrarily long histories.", "anchors": ["src/PMMR/Common/MMRHashUtil.cpp:MMRHashUtil::AddHashes", "src/PMMR/KernelMMR.cpp:KernelMMR::ApplyKernel"]}
{"id": "C20", "title": "The MMR root commits to the leaves and their order", "statement": "Two leaf sequences of the same length that give the same root are identical (hash taken collision-free), and the root of a past size computed after any number of further appends equals the root at that time.", "quantifier": "all pairs of leaf sequences, all later appends", "why_tests_cant": "Ranges over all pairs of histories.", "anchors": ["src/PMMR/Common/MMRHashUtil.cpp:MMRHashUtil::Root", "src/PMMR/KernelMMR.cpp:KernelMMR::Root"]}
{"id": "C21", "title": "Rewinding an MMR undoes appends exactly", "statement": "Appending any leaves and rewinding to the earlier leaf count restores the same size, leaves, hashes and root.", "quantifier": "all starting states, all appended leaves, any interleaving with commits", "why_tests_cant": "Reorg depths and histories are unbounded.", "anchors": ["src/PMMR/KernelMMR.cpp:KernelMMR::Rewind", "src/Core/File/AppendOnlyFile.cpp:AppendOnlyFile::Rewind"]}
{"id": "C22", "title": "Pruned-node bookkeeping finds the right hash", "statement": "After any set of subtrees is pruned, the prune list keeps only maximal pruned subtrees, reports as pruned exactly the positions inside them, and the shift it reports for an unpruned position equals the number of hash entries removed before it, so a lookup in the compacted file returns the entry of that position.", "quantifier": "all prune histories and all positions", "why_tests_cant": "Depends on the whole prior prune history.", "anchors": ["src/PMMR/Common/PruneList.cpp:PruneList::Add", "src/PMMR/Common/PruneList.cpp:PruneList::GetShift", "src/PMMR/Common/MMRHashUtil.cpp:MMRHashUtil::GetShiftedIndex"]}
{"id": "C23", "title": "Append-only files behave as committed list plus working list", "statement": "Through any sequence of append, rewind, commit, rollback and read, an append-only file's visible content is the working list; commit makes it durable; rollback restores the last committed content; reads return the bytes of the working list at the requested range.", "quantifier": "all operation sequences, all byte contents", "why_tests_cant": "Interleavings of rewind below the committed size with appends and rollback are unbounded.", "anchors": ["src/Core/File/AppendOnlyFile.cpp:AppendOnlyFile::Append", "src/Core/File/AppendOnlyFile.cpp:AppendOnlyFile::Rewind", "src/Core/File/AppendOnlyFile.cpp:AppendOnlyFile::Flush", "src/Core/File/AppendOnlyFile.cpp:AppendOnlyFile::Read", "include/Core/File/DataFile.h:DataFile"]}
{"id": "C24", "title": "Bitmap files behave as committed set plus working set", "statement": "Through any sequence of set, unset, rewind, commit and rollback, querying a bit returns membership in the working set; commit makes it durable and rollback restores the last committed set.", "quantifier": "all operation sequences, all bit positions", "why_tests_cant": "Unbounded histories.", "anchors": ["include/Core/File/BitmapFile.h:BitmapFile"]}
{"id": "C25", "title": "A crash during commit loses at most the uncommitted change", "statement": "If the process stops at any point during a commit of a data file, a bitmap file or the whole chain state, what is on disk is either the state before or the state after that commit.", "quantifier": "every crash point inside the sequence of writes", "why_tests_cant": "Tests do not stop the process between two system calls.", "anchors": ["include/Core/File/BitmapFile.h:BitmapFile::Commit", "src/Core/File/AppendOnlyFile.cpp:AppendOnlyFile::Flush", "src/BlockChain/ChainState.cpp:ChainState::Commit"]}
{"id": "C26", "title": "A batch either commits as a whole or rolls back as a whole", "statement": "Changes made through a batch writer become visible and durable only when the batch is committed; a batch dropped without commit leaves the object as it was, and a non-batch writer persists its change when released.", "quantifier": "all sequences of begin/modify/commit/rollback/release", "why_tests_cant": "Exception paths at arbitrary points.", "anchors": ["include/Core/Traits/Lockable.h:Writer", "include/Core/Traits/Batchable.h:IBatchable"]}
{"id": "C27", "title": "Difficulty never collapses or explodes in one step", "statement": "For any history of headers, the next required difficulty is at least the network minimum and the secondary scaling at least its minimum; under the damped/clamped algorithm the adjusted time span stays within its clamp; under WTEMA the next difficulty is bounded by the previous one.", "quantifier": "all header histories, timestamps and difficulties", "why_tests_cant": "Adversarial timestamps range over all 64-bit values.", "anchors": ["src/PoW/DifficultyCalculator.cpp:DifficultyCalculator::NextWTEMA", "src/PoW/DifficultyCalculator.cpp:DifficultyCalculator::NextDMA", "include/Consensus.h:Consensus::Damp", "include/Consensus.h:Consensus::Clamp"]}
{"id": "C28", "title": "Exactly one header version is valid at each height", "statement": "For each network and height there is exactly one accepted header version, and it never decreases with height.", "quantifier": "all heights, all networks, all versions", "why_tests_cant": "Boundary heights per network; unbounded heights.", "anchors": ["include/Consensus.h:Consensus::GetHeaderVersion", "src/BlockChain/Validators/BlockHeaderValidator.cpp"]}
{"id": "C29", "title": "Coinbase outputs cannot be spent before maturity", "statement": "A block that spends a coinbase output is accepted only if it is at least 1440 blocks (25 in automated testing) after the block that created it, except at heights below the maturity window where only the genesis bound applies; the wallet never selects an output the chain would refuse as immature.", "quantifier": "all heights and output ages", "why_tests_cant": "Boundary at every height.", "anchors": ["include/Consensus.h:Consensus::GetMaxCoinbaseHeight", "src/BlockChain/CoinView.h:CoinView", "include/Wallet/WalletUtil.h:WalletUtil::IsOutputImmature"]}
{"id": "C30", "title": "Weight limits bound the size of blocks and transactions", "statement": "An accepted block or transaction body has weight at most 40000 under the current rule, hence at most 40000 inputs, 1904 outputs and 13333 kernels; an accepted standalone transaction leaves room for a coinbase output and kernel.", "quantifier": "all bodies", "why_tests_cant": "All combinations of counts, including 64-bit wraparound.", "anchors": ["include/Consensus.h:Consensus::CalculateWeightV5", "src/Core/Models/TransactionBody.cpp:TransactionBody::CalcWeight", "src/Core/Validation/TransactionValidator.cpp:TransactionValidator::ValidateWeight"]}
{"id": "C31", "title": "Cuckoo-cycle verification accepts exactly the cycles", "statement": "A proof is accepted only if its 42 nonces are strictly ascending, fit the edge mask and the edges they denote form one simple cycle through all 42 edges; every such proof is accepted.", "quantifier": "all nonce lists, any siphash key schedule", "why_tests_cant": "The graph space is 2^(42*edge_bits); a verifier bug is a forged proof of work.", "anchors": ["src/PoW/Cuckatoo.cpp:Cuckatoo::Validate", "src/PoW/Cuckaroo.cpp", "src/PoW/Cuckarood.cpp", "src/PoW/Cuckaroom.cpp", "src/PoW/Cuckarooz.cpp"]}
{"id": "C32", "title": "Accepted headers extend their parent and cannot come from the far future", "statement": "A header accepted by header validation has height one more than its parent, a timestamp after its parent and at most twelve block intervals ahead of the clock, total difficulty equal to the parent's plus the required difficulty, and sizes consistent with its parent.", "quantifier": "all header pairs and clock values", "why_tests_cant": "Needs all clock values; unit mismatch is invisible with realistic test clocks.", "anchors": ["src/BlockChain/Validators/BlockHeaderValidator.cpp:BlockHeaderValidator", "include/Consensus.h:Consensus::GetMaxBlockTime"]}
{"id": "C33", "title": "Blocks with unsorted, duplicate or uncut items are refused", "statement": "A transaction body accepted by body validation has strictly sorted inputs, outputs and kernels, no repeated item, no output also spent as an input, and no commitment spent twice.", "quantifier": "all bodies of any size", "why_tests_cant": "Requires all pairs of elements of arbitrarily large bodies.", "anchors": ["src/Core/Validation/TxBodyValidator.cpp:TxBodyValidator::Validate"]}
{"id": "C34", "title": "Cut-through and aggregation preserve the balance", "statement": "Aggregating transactions (with cut-through) keeps the set of kernels, the summed offset, and the difference between the sum of output commitments and the sum of input commitments, and leaves no commitment both created and spent.", "quantifier": "all lists of transactions, any homomorphic commitment scheme", "why_tests_cant": "All multisets of commitments, including repeated ones.", "anchors": ["include/Core/Util/TransactionUtil.h:TransactionUtil::PerformCutThrough", "include/Core/Util/TransactionUtil.h:TransactionUtil::Aggregate"]}
{"id": "C35", "title": "No block creates money", "statement": "If a block passes kernel-sum validation then outputs minus inputs equals kernel excesses plus offset plus the block reward, in commitments; hence along any chain of accepted blocks from genesis, the sum of all unspent output commitments equals the sum of all kernel excesses plus the accumulated offset plus reward times the number of blocks.", "quantifier": "all chains of any length, any abelian commitment group", "why_tests_cant": "Induction over the whole chain.", "anchors": ["include/Core/Validation/KernelSumValidator.h:KernelSumValidator::ValidateKernelSums", "src/PMMR/TxHashSetValidator.cpp:TxHashSetValidator::ValidateKernelSums"]}
{"id": "C36", "title": "Unspent-output state: no double spend, apply and rewind are inverse", "statement": "Applying an accepted block to the chain's output set removes exactly its inputs and adds exactly its outputs; a block spending an absent output is refused; rewinding the block restores the previous set of unspent outputs, sizes and roots.", "quantifier": "all output sets, all blocks, all reorg depths", "why_tests_cant": "Unbounded histories and reorgs.", "anchors": ["src/PMMR/TxHashSetImpl.cpp:TxHashSet::ApplyBlock", "src/PMMR/TxHashSetImpl.cpp:TxHashSet::Rewind"]}
{"id": "C37", "title": "The chain index is a path of consecutive headers", "statement": "Through any sequence of appends, rewinds and reorgs, looking up height h in a chain returns the header last put there, heights run from 0 to the tip without gaps, and the common ancestor found for two chains is the highest height at which they agree.", "quantifier": "all operation sequences and all pairs of chains", "why_tests_cant": "Unbounded histories.", "anchors": ["src/BlockChain/Chain.cpp:Chain", "src/BlockChain/ChainStore.cpp:ChainStore::FindCommonIndex", "src/BlockChain/ChainStore.cpp:ChainStore::ReorgChain"]}
{"id": "C38", "title": "The confirmed tip never loses total work", "statement": "Whatever blocks arrive in whatever order, the confirmed tip's total difficulty never decreases, and a valid block with more work than the current tip whose ancestors are known becomes the tip.", "quantifier": "all arrival orders of all blocks", "why_tests_cant": "All schedules of a concurrent peer network.", "anchors": ["src/BlockChain/Processors/BlockProcessor.cpp:BlockProcessor::ProcessBlock", "src/BlockChain/ChainState.cpp"]}
{"id": "C39", "title": "Compact blocks rebuild the original block or nothing", "statement": "Hydrating a compact block from a pool yields either a block whose transactions are the compact block's full items plus pool transactions matched by short id, or failure; if the pool holds the block's transactions and short ids do not collide, the result is the original block.", "quantifier": "all pools and blocks", "why_tests_cant": "Depends on arbitrary pool contents and short-id coincidences.", "anchors": ["src/BlockChain/BlockHydrator.cpp:BlockHydrator::Hydrate", "src/BlockChain/CompactBlockFactory.cpp"]}
{"id": "C40", "title": "The transaction pool stays jointly mineable", "statement": "After any sequence of add and reconcile operations, the transactions offered for mining or relay can all be included in one block on the current tip.", "quantifier": "all histories of the pool", "why_tests_cant": "Unbounded interleavings of submissions and blocks.", "anchors": ["src/TxPool/Pool.cpp:Pool", "src/TxPool/ValidTransactionFinder.cpp:ValidTransactionFinder::FindValidTransactions", "src/TxPool/TransactionPoolImpl.cpp:TransactionPool::AddTransaction"]}
{"id": "C41", "title": "A stemmed transaction is fluffed only after its embargo", "statement": "A transaction added to the stem pool at time t is reported as expired only once the embargo period has passed since t.", "quantifier": "all times, all embargo settings", "why_tests_cant": "Time-dependent; tests do not wait.", "anchors": ["src/TxPool/Pool.cpp:Pool::AddTransaction", "src/TxPool/Pool.cpp:Pool::GetExpiredTransactions"]}
{"id": "C42", "title": "Coin selection covers amount plus fee", "statement": "For each strategy, if coin selection succeeds the selected coins are spendable, distinct, and their total is at least the amount plus the fee for that many inputs; if it fails no sufficient selection under the strategy exists.", "quantifier": "all coin lists, amounts, fee bases and strategies", "why_tests_cant": "All multisets of coin values; arithmetic near boundaries.", "anchors": ["src/Wallet/SlateBuilder/CoinSelection.cpp:CoinSelection::SelectCoinsToSpend"]}
{"id": "C43", "title": "A send balances to the last unit", "statement": "When a send slate is built, inputs = amount + fee + change, the change split over the requested number of change outputs sums to the change, and no quantity wraps around.", "quantifier": "all wallets, amounts, fee bases, numbers of change outputs", "why_tests_cant": "Overflow and underflow corners at 64-bit extremes.", "anchors": ["src/Wallet/SlateBuilder/SendSlateBuilder.cpp:SendSlateBuilder::Build", "src/Wallet/SlateBuilder/OutputBuilder.h:OutputBuilder::CreateOutputs"]}
{"id": "C44", "title": "Wallet balance accounts for every output exactly once", "statement": "The reported total, spendable, immature, unconfirmed and locked amounts classify every wallet output exactly once by its status, maturity and confirmations.", "quantifier": "all output lists and heights", "why_tests_cant": "All combinations of statuses and heights.", "anchors": ["src/Wallet/WalletImpl.cpp:WalletImpl::GetBalance"]}
{"id": "C45", "title": "Cancelling a transaction releases exactly what it locked", "statement": "Cancelling an unconfirmed sent transaction makes each of its locked inputs spendable again and its own outputs canceled, touching no other output; a confirmed transaction cannot be cancelled.", "quantifier": "all wallet states", "why_tests_cant": "Unbounded wallet states and interleavings with refresh.", "anchors": ["src/Wallet/CancelTx.cpp:CancelTx::CancelWalletTx"]}
{"id": "C46", "title": "A slate is received at most once", "statement": "A wallet that has already received a slate id refuses to receive it again, whatever happened since.", "quantifier": "all wallet histories", "why_tests_cant": "The gap appears only after specific histories (cancel, self-send).", "anchors": ["src/Wallet/SlateBuilder/ReceiveSlateBuilder.cpp:ReceiveSlateBuilder::VerifySlateStatus"]}
{"id": "C47", "title": "Finalizing yields a valid aggregate signature over the agreed excess", "statement": "When both parties follow the slate protocol, the finalized kernel's excess equals the sum of both parties' public excesses, the aggregate of valid partial signatures verifies against it, and the transaction balances with the adjusted offset.", "quantifier": "all keys, nonces, offsets, amounts (in the algebra of Schnorr signatures over any prime-order group)", "why_tests_cant": "Algebraic identity over a 2^256 field.", "anchors": ["src/Wallet/SlateBuilder/FinalizeSlateBuilder.cpp:FinalizeSlateBuilder::Finalize", "src/Wallet/SlateBuilder/SlateUtil.h:SlateUtil::CalculateSigningKeys"]}
{"id": "C48", "title": "A session token opens only its own wallet and only while logged in", "statement": "After any sequence of logins and logouts, a token retrieves a wallet only if it was issued by a login that has not been logged out since and it is the token issued; tokens with a different key part are refused.", "quantifier": "all login/logout histories, all forged tokens", "why_tests_cant": "Unbounded histories and all byte strings as tokens.", "anchors": ["src/Wallet/SessionManager.cpp:SessionManager::GetWallet", "src/Wallet/SessionManager.cpp:SessionManager::GetSeed"]}
{"id": "C49", "title": "Key indices and transaction ids are never reused", "statement": "Over any sequence of wallet operations, committed or rolled back, committed outputs use pairwise distinct child key paths and committed transactions pairwise distinct ids.", "quantifier": "all operation and rollback histories", "why_tests_cant": "Unbounded histories with aborted operations.", "anchors": ["src/Wallet/WalletDB/Sqlite/WalletSqlite.cpp:WalletSqlite::GetNextChildPath", "src/Wallet/WalletDB/Sqlite/WalletSqlite.cpp:WalletSqlite::GetNextTransactionId"]}
{"id": "C50", "title": "Block locators start at the tip, end at genesis and stay short", "statement": "The heights in a block locator are strictly decreasing, start at the current height, end at 0, and number at most the protocol's maximum, so a peer always finds a common header.", "quantifier": "all chain heights", "why_tests_cant": "Unbounded heights.", "anchors": ["src/P2P/BlockLocator.cpp:BlockLocator::GetLocatorHeights", "include/P2P/Common.h:MAX_LOCATORS"]}
{"id": "C51", "title": "Headers served to a peer connect to a header it has", "statement": "The list of headers served for a locator starts right after a header in the locator that is on our chain, is contiguous, and has at most 512 entries.", "quantifier": "all chains and locators", "why_tests_cant": "Forked locators and short chains at all heights.", "anchors": ["src/P2P/BlockLocator.cpp:BlockLocator::LocateHeaders", "src/P2P/BlockLocator.cpp:BlockLocator::FindCommonHeader"]}
{"id": "C52", "title": "Every dead connection is pruned", "statement": "One prune pass removes every inactive connection (and, on shutdown, every connection) and keeps every active one.", "quantifier": "all connection lists", "why_tests_cant": "Consecutive inactive entries at any position.", "anchors": ["src/P2P/ConnectionManager.cpp:ConnectionManager::PruneConnections"]}
{"id": "C53", "title": "A banned peer does not hide the others", "statement": "Asking for peers with a capability returns, from the known peers, those that are not banned, not connected, not recently tried and have the capability, up to the requested count.", "quantifier": "all peer tables and starting points", "why_tests_cant": "Position of a banned peer relative to the random start.", "anchors": ["src/P2P/Seed/PeerManager.cpp:PeerManager::GetPeersWithCapability"]}
{"id": "C54", "title": "The most-work peer is chosen", "statement": "The peer selected for syncing has total difficulty at least that of every other connected peer with nonzero height.", "quantifier": "all connection lists", "why_tests_cant": "All orderings and ties.", "anchors": ["src/P2P/ConnectionManager.cpp:ConnectionManager::GetMostWorkPeer"]}
{"id": "C55", "title": "Rate counters count exactly the last minute", "statement": "The number of sent or received messages reported equals the number recorded in the last sixty seconds.", "quantifier": "all sequences of events with a nondecreasing clock", "why_tests_cant": "Unbounded event sequences.", "anchors": ["include/Net/RateCounter.h:RateCounter"]}
{"id": "C56", "title": "The inbound listener keeps listening", "statement": "After handling any inbound connection, accepted or refused, the node is ready to accept the next one, while it is not terminating.", "quantifier": "all sequences of inbound connections", "why_tests_cant": "Liveness after a refused connection.", "anchors": ["src/P2P/Seed/Seeder.cpp:Seeder::Accept"]}
{"id": "C57", "title": "Queues are FIFO and unique where promised", "statement": "A concurrent queue returns elements in insertion order; the unique push never stores an element equal to one already queued; a failing element does not block the ones behind it in the transaction pipe.", "quantifier": "all operation sequences", "why_tests_cant": "Unbounded schedules.", "anchors": ["include/Common/ConcurrentQueue.h:ConcurrentQueue", "src/P2P/Pipeline/TransactionPipe.cpp"]}
{"id": "C58", "title": "The header cache always agrees with the database", "statement": "Through any sequence of begin, add, commit, rollback and get, a header read from the block database is one that was committed, or added in the current batch; a rolled-back header is never returned.", "quantifier": "all operation sequences", "why_tests_cant": "Unbounded histories across batches.", "anchors": ["src/Database/BlockDBImpl.cpp:BlockDB::GetBlockHeader", "src/Database/BlockDBImpl.cpp:BlockDB::AddBlockHeader", "src/Database/BlockDBImpl.cpp:BlockDB::Commit"]}
{"id": "C59", "title": "The LRU cache is a bounded map evicting the least recently used key", "statement": "Get returns the last value put for a key unless evicted; the number of entries never exceeds the capacity; only the least recently used key is evicted.", "quantifier": "all operation sequences, all capacities", "why_tests_cant": "Unbounded histories.", "anchors": ["deps/caches/include/cache.hpp", "deps/caches/include/lru_cache_policy.hpp"]}
{"id": "C60", "title": "An accepted range proof was verified for that very output", "statement": "If range-proof verification of a list of (commitment, proof) pairs returns success then each pair was cryptographically verified, now or earlier.", "quantifier": "all verification histories", "why_tests_cant": "Requires a history where the same commitment appears with another proof.", "anchors": ["src/Crypto/Bulletproofs.cpp:Bulletproofs::VerifyBulletproofs", "src/Crypto/BulletProofsCache.h:BulletProofsCache"]}
{"id": "C61", "title": "State sync is requested exactly when blocks are beyond the horizon", "statement": "State sync is due only when our block height is older than the cut-through horizon behind the header height; on a chain shorter than the horizon, blocks are synced directly.", "quantifier": "all header/block heights", "why_tests_cant": "Unsigned subtraction below the horizon.", "anchors": ["src/P2P/Sync/StateSyncer.cpp:StateSyncer::SyncState", "src/P2P/Sync/StateSyncer.cpp:StateSyncer::IsStateSyncDue"]}
{"id": "C62", "title": "Handshake settles on a version both sides speak and never connects to self", "statement": "After a successful handshake the negotiated protocol version is at most both sides' versions; a handshake carrying our own nonce, another genesis, or from an already connected address is refused.", "quantifier": "all hand/shake messages", "why_tests_cant": "All message values.", "anchors": ["src/P2P/Seed/HandShake.cpp:HandShake"]}
{"id": "C63", "title": "Snapshot validation checks every output and kernel", "statement": "When a downloaded chain snapshot validates, its sizes and roots match the header, every stored parent hash is consistent with its children, every unspent output's range proof and every kernel's signature was in some verified batch, and kernel roots match every historical header.", "quantifier": "all snapshots of any size", "why_tests_cant": "Batch boundaries (1000, 2000) and unbounded sizes.", "anchors": ["src/PMMR/TxHashSetValidator.cpp:TxHashSetValidator::Validate"]}
{"id": "C64", "title": "Orphan blocks are found again by height and hash and the pool is bounded", "statement": "An added orphan is returned by hash and height until removed or evicted, and the orphan pool keeps within its limit.", "quantifier": "all operation sequences", "why_tests_cant": "Unbounded histories.", "anchors": ["src/BlockChain/OrphanPool/OrphanPool.h:OrphanPool"]}
{"id": "C65", "title": "A slate never lists a commitment twice", "statement": "However inputs and outputs are added to a slate, every commitment added is in it and no commitment is listed twice.", "quantifier": "all sequences of additions", "why_tests_cant": "Unbounded sequences with repeated commitments.", "anchors": ["src/Wallet/Models/Slate/Slate.cpp:Slate::AddInput", "src/Wallet/Models/Slate/Slate.cpp:Slate::AddOutput"]}
{"id": "C66", "title": "Slates compare equal exactly when they are the same", "statement": "Comparing two slates gives true if and only if they agree in every field.", "quantifier": "all pairs of slates", "why_tests_cant": "Needs all pairs differing in one field.", "anchors": ["include/Wallet/Models/Slate/Slate.h:Slate::operator=="]}
{"id": "C67", "title": "A malformed message ends the connection, not the node's thread", "statement": "Whatever a peer sends, handling the received message finishes; afterwards the connection either waits for the next message or is closed, and a message that cannot be deserialized closes it.", "quantifier": "every connection state, every message, every way its processing can end", "why_tests_cant": "A hang is not an assertion failure, and the failing path needs a hostile peer.", "anchors": ["src/P2P/Connection.cpp:Connection::HandleReceivedBody", "src/P2P/Connection.cpp:Connection::Disconnect", "src/P2P/MessageProcessor.cpp:MessageProcessor::ProcessMessage"]}
{"id": "C68", "title": "Opening the chain finishes", "statement": "Opening the chain at start-up always finishes; a transaction hash set last flushed below the horizon is dropped (to be downloaded again) and any other is compacted.", "quantifier": "every flushed height and confirmed height, with or without a transaction hash set", "why_tests_cant": "Needs a database more than a week of blocks behind; a hang is not an assertion failure.", "anchors": ["src/BlockChain/BlockChainImpl.cpp:BlockChain::Create", "include/Core/Traits/Lockable.h:Locked::BatchWrite"]}
{"id": "C69", "title": "Only permitted graph sizes count, and any graph size is handled", "statement": "Whatever graph size a header names, validating its proof of work is well defined; a header is accepted only with a permitted size (29 bits while the secondary proof of work lasts, else 31 or more).", "quantifier": "all headers, all edge bits from 1 to 63", "why_tests_cant": "The sanitizers only see the sizes a test happens to use, and honest miners use two.", "anchors": ["src/PoW/PoWValidator.cpp:PoWValidator::GetMaximumDifficulty", "include/Consensus.h:Consensus::ScalingDifficulty", "include/Core/Models/ProofOfWork.h:ProofOfWork::IsPrimary"]}
{"id": "C70", "title": "Verification of a proof of work ends with an answer", "statement": "Whatever edges a header's proof of work lists, verification of the proof ends and either accepts or refuses the header.", "quantifier": "all nonce lists, any siphash key schedule, each of the five graph families", "why_tests_cant": "A loop that never ends is not an assertion failure, and the failing input is one an honest miner never produces.", "anchors": ["src/PoW/Cuckarood.cpp", "src/PoW/Cuckatoo.cpp", "src/PoW/Cuckaroo.cpp", "src/PoW/Cuckaroom.cpp", "src/PoW/Cuckarooz.cpp"]}
{"id": "C71", "title": "Processing a received header ends", "statement": "Whatever headers a peer sends, the call that processes a header returns: the search for a header's ancestors visits each header at most once.", "quantifier": "all sequences of headers, including headers whose proof of work nobody has checked yet", "why_tests_cant": "A loop without end needs headers that no miner produces; tests use generated chains.", "anchors": ["src/BlockChain/Processors/BlockHeaderProcessor.cpp:BlockHeaderProcessor::ProcessOrphan", "src/BlockChain/OrphanPool/OrphanPool.cpp"]}
{"id": "C72", "title": "A block is checked against the header that carries the work", "statement": "The block stored under a hash carries exactly the header that was validated under this hash, so roots, sizes, offset and body of an accepted block are those the proof of work was spent on.", "quantifier": "all sequences of headers and blocks in any order", "why_tests_cant": "Needs two different headers with one hash; the tests' headers are made by one builder.", "anchors": ["src/BlockChain/Processors/BlockProcessor.cpp:BlockProcessor::ProcessBlock", "include/Core/Models/BlockHeader.h"]}
{"id": "C73", "title": "The header MMR belongs to a linked candidate chain", "statement": "After any events the leaves of the header MMR are the headers of the candidate chain, one at each height, each header names the one below it as its parent, and the candidate chain's work never falls.", "quantifier": "all sequences of headers, batches of headers and blocks", "why_tests_cant": "Unbounded histories with rollbacks of the candidate chain.", "anchors": ["src/BlockChain/Processors/BlockHeaderProcessor.cpp:BlockHeaderProcessor::ProcessSyncHeaders", "src/BlockChain/Processors/BlockHeaderProcessor.cpp:BlockHeaderProcessor::ValidateHeaders"]}
{"id": "C74", "title": "The pool admits a transaction exactly by its rules", "statement": "A submitted transaction is admitted exactly if it is not in the public pool already, pays the minimum fee for its weight and fee shift, has no kernel locked beyond the next block, passes the transaction validator and is valid against the unspent outputs; a refused one changes nothing.", "quantifier": "all pools, states and transactions", "why_tests_cant": "The conditions interact over unbounded transactions and states.", "anchors": ["src/TxPool/TransactionPoolImpl.cpp:TransactionPool::AddTransaction", "src/Core/Models/Transaction.cpp:Transaction::FeeMeetsMinimum"]}
{"id": "C75", "title": "A signing secret is used for one signature only", "statement": "The wallet never signs two different kernels with the same secret nonce: once a sent slate has been finalized, another response to the same slate is not signed.", "quantifier": "all responses a counterparty can send, in any number and order", "why_tests_cant": "The defect needs two adversarial responses to one slate; a test that finalizes once cannot see it, and the consequence is an algebraic identity over all keys.", "anchors": ["src/Wallet/SlateBuilder/FinalizeSlateBuilder.cpp:FinalizeSlateBuilder::Finalize", "src/API/Wallet/Foreign/Handlers/FinalizeTxHandler.h:FinalizeTxHandler::Handle"]}
{"id": "C76", "title": "A displayed balance is the balance", "statement": "The formatted balances in the wallet's JSON are decimal numbers whose value is the balance, and different balances are displayed differently.", "quantifier": "all 64-bit amounts", "why_tests_cant": "2^64 amounts; the examples one tries have nine-digit fractions or none.", "anchors": ["include/Wallet/Models/DTOs/WalletBalanceDTO.h:WalletBalanceDTO::FormatAmount"]}
{"id": "C77", "title": "A validated snapshot holds the outputs and kernels the header commits to", "statement": "When a downloaded chain snapshot validates, the outputs, range proofs and kernels stored in it are those whose hashes the roots of the header commit to, in that order and no others.", "quantifier": "all snapshots of any size", "why_tests_cant": "Requires a snapshot with consistent hash files but other data files.", "anchors": ["src/PMMR/TxHashSetValidator.cpp:TxHashSetValidator::Validate", "src/PMMR/TxHashSetValidator.cpp:TxHashSetValidator::ValidateSizes", "src/PMMR/KernelMMR.cpp:KernelMMR::GetKernelAt"]}
{"id": "C78", "title": "Header synchronization reaches the heavier chain, and bans only peers that do not answer", "statement": "A node whose peers offer a valid chain with more work than its own ends up with the headers of that chain, whatever batches it takes. A peer is banned for not delivering headers only if it was asked again after a first request ran out and did not answer.", "quantifier": "all chains, all forks and any number of requests; all histories of what the header syncer sees", "why_tests_cant": "Needs forks of more than a batch, many rounds of requests and peers that come and go.", "anchors": ["src/P2P/Sync/HeaderSyncer.cpp:HeaderSyncer::SyncHeaders", "src/P2P/Sync/HeaderSyncer.cpp:HeaderSyncer::IsHeaderSyncDue", "src/P2P/Sync/HeaderSyncer.cpp:HeaderSyncer::RequestHeaders", "src/BlockChain/Processors/BlockHeaderProcessor.cpp:BlockHeaderProcessor::ProcessSyncHeaders"]}
{"id": "C79", "title": "The blocks needed are the next ones of the header chain", "statement": "The node reports as needed the blocks of its best header chain above the last block it shares with the block chain, lowest first, without those it holds as orphans, and no more than asked for.", "quantifier": "all chains, all limits, all sets of orphans", "why_tests_cant": "Forks below the tip, full pools and limits together.", "anchors": ["src/BlockChain/ChainState.cpp:ChainState::GetBlocksNeeded"]}
{"id": "C80", "title": "Blocks are requested evenly, and only peers that stay silent are banned", "statement": "A call of the block syncer asks only for blocks that are needed, not held and not being processed, from connected peers, and gives no peer more than 16 new requests. A peer is banned only after it was asked for a block again and did not send it in time.", "quantifier": "all histories of what the block syncer sees", "why_tests_cant": "Depends on the times of many requests and on peers disconnecting in between.", "anchors": ["src/P2P/Sync/BlockSyncer.cpp:BlockSyncer::SyncBlocks", "src/P2P/Sync/BlockSyncer.cpp:BlockSyncer::IsBlockSyncDue", "src/P2P/Sync/BlockSyncer.cpp:BlockSyncer::RequestBlocks"]}
{"id": "C81", "title": "Blocks on the chain obey the rules for a block alone", "statement": "Every block accepted weighs at most 40000, has no kernel locked beyond its height and no commitment both created and spent, and its coinbase outputs are worth exactly 60 grin plus its fees; kernels of kinds the network has not enabled are refused.", "quantifier": "all blocks, all chains", "why_tests_cant": "Sums of commitments over any number of outputs and kernels.", "anchors": ["src/BlockChain/Validators/BlockValidator.cpp:BlockValidator::VerifySelfConsistent", "src/BlockChain/Validators/BlockValidator.cpp:BlockValidator::VerifyCoinbase", "src/BlockChain/Validators/BlockValidator.cpp:BlockValidator::VerifyKernelLockHeights"]}
{"id": "C82", "title": "A node lists exactly the unspent outputs", "statement": "Asked for outputs from a leaf number on, at most m of them, a node answers with the first m unspent outputs from that leaf on, in the order they were created, each with its identifier, its leaf number and block height, and its range proof; with the number of the last output of the chain and of the last one in the answer. Over all leaves these are exactly the outputs a lookup by commitment finds.", "quantifier": "For every chain of blocks applied to the empty set in which no block spends what it creates, every start and every m.", "why_tests_cant": "The answer depends on four stores (output range, proof range, unspent bitmap, position table) agreeing after every history of blocks; a test sees a few histories.", "anchors": ["src/PMMR/TxHashSetImpl.cpp:273-304", "src/PMMR/TxHashSetImpl.cpp:98-163", "include/Core/Models/DTOs/OutputRange.h:5-16"]}
{"id": "C83", "title": "Restoring a wallet finds its outputs", "statement": "A search for the wallet's outputs, from the beginning or from where the last search ended, ends and finds every unspent output on the chain whose range proof the wallet can rewind, and no other.", "quantifier": "For every chain, every set of own outputs, every saved index, also if the chain grows or is reorganised during or between searches.", "why_tests_cant": "Needs chains with more outputs than one batch and reorganisations between batches.", "anchors": ["src/Wallet/OutputRestorer.cpp:11-46", "src/Wallet/OutputRestorer.cpp:48-67", "include/Wallet/NodeClient.h"]}
{"id": "C84", "title": "The fee shown is the fee paid", "statement": "The coins, the amount and the fee that a fee estimate shows are those of the transaction that a send with the same request makes, and a request the estimate accepts is accepted by the send.", "quantifier": "For every set of coins, every request (an amount or the entire balance, any fee base, number of change outputs and strategy) and every height.", "why_tests_cant": "Estimate and send are two implementations over different sets of coins and different rules for the fee; a test with one wallet and one change output sees them agree.", "anchors": ["src/Wallet/Wallet.cpp:169-225", "src/Wallet/SlateBuilder/SendSlateBuilder.cpp:22-87", "include/API/Wallet/Owner/Models/EstimateFeeCriteria.h:23-44"]}
{"id": "C85", "title": "The password opens the wallet, and nothing else does", "statement": "A wallet seed encrypted with a password and written to the seed file opens with that password and gives the same seed; any other password, and any damaged file, is refused without harm; changing the password keeps the seed, and at every moment of the change the wallet opens with the old or the new password.", "quantifier": "For every seed, password, salt and initial vector; for every content of the seed file; for every moment at which the program stops.", "why_tests_cant": "Wrong passwords produce random plaintexts with accidental paddings; damage and stops have to be tried everywhere.", "anchors": ["src/Wallet/Keychain/SeedEncrypter.cpp:10-47", "src/Wallet/Keychain/SeedEncrypter.cpp:49-72", "src/Crypto/AES256.cpp:6-41", "src/Wallet/WalletManagerImpl.cpp:247-259"]}
{"id": "C86", "title": "Encrypted records of the wallet database come back unchanged, altered ones are refused", "statement": "A record stored encrypted under the seed comes back unchanged; stored bytes that are not an encryption of a record of that type under that seed, such as altered ones, are refused.", "quantifier": "For every record, type, seed and initial vector, and every alteration of the stored bytes.", "why_tests_cant": "An integrity claim quantifies over all alterations.", "anchors": ["src/Wallet/WalletDB/WalletEncryptionUtil.cpp:9-65", "src/Crypto/AES256.cpp:6-41"]}
{"id": "C87", "title": "A slate sent as JSON arrives as it was", "statement": "A slate written as JSON by one wallet and read by another is the same slate, with the same fee, lock height, signatures, inputs, outputs and payment proof; reading any JSON whatever either gives a slate or reports an error.", "quantifier": "For every slate, and for every JSON value.", "why_tests_cant": "Every field is optional and has its own default and encoding; the combinations of fields, values and stages are unbounded.", "anchors": ["src/Wallet/Models/Slate/Slate.cpp:304-356", "src/Wallet/Models/Slate/Slate.cpp:358-411", "include/Wallet/Models/Slate/SlateCommitment.h:54-85", "include/Wallet/Models/Slate/SlateSignature.h:57-80", "include/Core/Models/Fee.h:57-66"]}
{"id": "C88", "title": "A transaction sent as JSON arrives as it was", "statement": "A transaction written as JSON and read back (as when it is pushed to a node) is the same transaction; reading any JSON whatever either gives a transaction or reports an error.", "quantifier": "For every transaction, and for every JSON value.", "why_tests_cant": "Kernel kinds, fees, empty lists and malformed values combine without bound.", "anchors": ["src/Core/Models/TransactionKernel.cpp:108-158", "src/Core/Models/TransactionBody.cpp:89-148", "src/Core/Models/Transaction.cpp:48-65", "include/Core/Models/Features.h:22-105"]}
{"id": "C89", "title": "Numbers in requests are read as written or refused", "statement": "A number given in a request, as a JSON number or as text, is read as that number, and anything that is not a number in the range of its field is refused.", "quantifier": "For every JSON value, and every text.", "why_tests_cant": "The texts are infinitely many and the errors sit at signs, trailing characters and the bounds of 8 and 64 bits.", "anchors": ["include/Core/Util/JsonUtil.h:351-365", "include/Core/Util/JsonUtil.h:426-437"]}
{"id": "C90", "title": "The 128-bit arithmetic behind the difficulty is exact", "statement": "Sums, differences, products, shifts, comparisons, quotients and remainders of the 128-bit numbers are those of the whole numbers modulo 2^128; a division by zero is reported and every other division returns; the difficulty a proof may claim at most is exactly scaling\u00b72^64 divided by the proof's hash, capped at 2^64\u22121.", "quantifier": "For all 128-bit operands and shift amounts, for every scaling and every hash.", "why_tests_cant": "There are 2^256 pairs of operands, and the errors of such code sit at carries between words, shifts across the word boundary and remainders above 2^127.", "anchors": ["src/PoW/uint128.cpp:93-140", "src/PoW/uint128.cpp:189-289", "src/PoW/uint128.cpp:345-384", "src/PoW/PoWValidator.cpp:57-90"]}
{"id": "C91", "title": "Base64 text and session tokens read back as written", "statement": "Any bytes written as Base64, padded or not, are read back unchanged; a character outside the alphabet is refused; the token a login returns, sent with a later request, names the same session and carries the same key, and two tokens never have the same text.", "quantifier": "For all byte strings, all session numbers below 2^64 and all keys; for every position of a wrong character before the first NUL.", "why_tests_cant": "The three tail lengths, the padding rules and the bit shuffling interact; a table of examples covers a few of infinitely many strings.", "anchors": ["include/Core/Serialization/Base64.h:1-41", "deps/cppcodec/cppcodec/detail/stream_codec.hpp:116-404", "deps/cppcodec/cppcodec/detail/base64.hpp:57-133", "include/Wallet/SessionToken.h:28-54"]}
{"id": "C92", "title": "An encrypted slatepack is read by its recipients only, and only as it was written", "statement": "Every recipient of an encrypted message decrypts it to what was encrypted; a key for which the message has no box gets an error; what decrypts is exactly the chunks sealed under the file key of a box for that key, so no chunk was changed, dropped, repeated, reordered or cut off; a message with an altered header is refused; no message makes decryption read outside its buffers.", "quantifier": "For all texts below 2^63 bytes, all lists of recipients, all random bytes, and all received messages below 2^64 bytes; for every key stream, tag function and key derivation.", "why_tests_cant": "Chunk boundaries (64 KiB multiples), the counter nonces, the order of recipients and hostile messages form an unbounded space; tests encrypt and decrypt a few short texts.", "anchors": ["src/Crypto/Age.cpp:7-153", "include/Crypto/ChaChaPoly.h:24-141", "include/Crypto/Age/Header.h:19-119", "include/Crypto/Age/RecipientLine.h:17-41", "deps/chachapoly/chachapoly.cpp:107-142"]}
{"id": "C93", "title": "A snapshot of the chain state arrives complete or not at all", "statement": "The file a peer sends after announcing a snapshot is stored byte for byte, exactly as long as announced, and the messages after it are left alone; a peer that falls silent makes the download fail; a snapshot one node serves is received whole by another; at most one snapshot is handled at a time.", "quantifier": "For all files, announced sizes below 2^64 and all bytes a peer may send.", "why_tests_cant": "The sizes at which the arithmetic goes wrong are 2^31 bytes and more, and a test with a file of the wrong size class would need two nodes and gigabytes.", "anchors": ["src/P2P/Pipeline/TxHashSetPipe.cpp:37-230", "src/P2P/Connection.cpp:258-270", "src/Net/Socket.cpp:229-273"]}
{"id": "C94", "title": "A received snapshot replaces the chain state only if it is valid, and otherwise leaves the node as it was", "statement": "Unpacking writes only the expected files of the three state folders and leaves nothing of their old content; a snapshot that is accepted belongs to a known header of the best header chain and passed validation, and the confirmed chain then ends at that header; a refused snapshot changes nothing; no snapshot makes the node read a null pointer.", "quantifier": "For all archives, all states of the two chains and of the file system, all hashes a peer may name.", "why_tests_cant": "Hostile archives and all combinations of chain positions form an unbounded space; tests use one well-formed archive.", "anchors": ["src/BlockChain/Processors/TxHashSetProcessor.cpp:21-98", "src/PMMR/Zip/TxHashSetZip.cpp:16-120", "src/PMMR/Zip/ZipFile.cpp:18-62", "src/PMMR/TxHashSetManager.cpp:51-89", "src/P2P/Pipeline/TxHashSetPipe.cpp:37-151"]}
{"id": "C95", "title": "Segments of the chain state survive the wire and cost no more memory than they carry", "statement": "Every message that carries a segment of the bitmap, the outputs, the range proofs or the kernels is read by its receiver as the message that was sent; and receiving one does not make the node fill more memory than a constant multiple of the bytes received.", "quantifier": "For all segments with any number of hashes, leaves and proof hashes, all protocol versions, all bytes a peer may send.", "why_tests_cant": "Tests round-trip a few small segments; the counts that hurt are near 2^32 and beyond and come from hostile peers.", "anchors": ["include/PMMR/Common/Segment.h:73-125", "include/PMMR/Common/BitmapSegment.h:50-182", "include/PMMR/Common/SegmentProof.h:43-60", "include/PMMR/Common/SegmentId.h:43-54", "src/P2P/Messages/SegmentResponseMessage.h:40-152", "src/P2P/MessageProcessor.cpp:356-427"]}
{"id": "C96", "title": "Keys derived from the seed follow BIP32", "statement": "The master key of a seed and the key of every index path are those BIP32 prescribes (with Grin's key string), hardened from index 2^31; every derived key is a valid secret; a seed without a valid master key is refused; keys of sibling paths differ.", "quantifier": "For all seeds, all paths of any depth, all 32-bit indices.", "why_tests_cant": "Tests compare a few published vectors; the comparison with the group order and the choice of what is authenticated matter for all keys.", "anchors": ["src/Wallet/Keychain/KeyGenerator.cpp:12-77", "src/Wallet/Keychain/KeyChain.cpp:19-48", "include/Crypto/Models/BigInteger.h:190-249", "src/Crypto/Crypto.cpp:87-97"]}
{"id": "C97", "title": "A wallet restored from the seed recognises its outputs and can spend them", "statement": "Every output a wallet makes, in a payment or as a block reward, is recognised by a wallet that has only the seed, at whatever height it lies, with its path, its amount and the key that opens it; outputs of others are left alone; a search of the chain with only the seed finds exactly the wallet's unspent outputs.", "quantifier": "For all seeds, amounts, paths of one to four indices, heights and networks, all sets of unspent outputs.", "why_tests_cant": "Tests restore a handful of outputs; the claim composes key derivation, the message in the proof, two kinds of nonces and the paging of the search.", "anchors": ["src/Wallet/Keychain/KeyChain.cpp:58-110", "src/Wallet/OutputRestorer.cpp:11-108", "src/Wallet/WalletImpl.cpp:122-157", "src/Wallet/Wallet.cpp:262-300", "include/Crypto/Models/ProofMessage.h:13-63"]}
{"id": "C98", "title": "The relay thread keeps stem transactions on the stem until their embargo ends", "statement": "In one round of the relay thread at most one stem message is sent, to one connected peer, the relay, which changes only when its time is over and is drawn among the peers with most work; it carries stem pool transactions valid together with the public pool. A transaction is broadcast only if it is in the public pool, and a stem transaction is broadcast no earlier than its embargo and then always, unless the public pool refuses it.", "quantifier": "For all pool contents, clocks, peers, connections and chain states during a round.", "why_tests_cant": "The thread sleeps, draws random peers and times and depends on connections; tests do not run it.", "anchors": ["src/P2P/Dandelion.cpp:66-209", "src/P2P/ConnectionManager.cpp:147-171", "src/BlockChain/BlockChainImpl.cpp:205-240", "src/TxPool/TransactionPoolImpl.cpp:125-195"]}
{"id": "C99", "title": "Blocks may arrive in any order", "statement": "When the blocks that lead from the confirmed chain to the header chain are good and arrive in any order, from any peers, any number of times, and are processed by up to eight threads at a time next to the thread for waiting blocks, then no call fails, nobody is banned, and once all have arrived the confirmed chain becomes the header chain, with the output set of applying the blocks in order. Only peers that sent a bad block are banned.", "quantifier": "For all chains of blocks, all orders and repetitions of arrival, all schedules of the threads.", "why_tests_cant": "The number of orders and schedules is unbounded and tests use one thread.", "anchors": ["src/P2P/Pipeline/BlockPipe.cpp:31-118", "src/BlockChain/Processors/BlockProcessor.cpp:17-225", "src/BlockChain/BlockChainImpl.cpp:386-419", "include/Common/ConcurrentQueue.h:45-142"]}
{"id": "C100", "title": "A stored wallet survives closing, opening and upgrading", "statement": "What a wallet has stored - outputs, transactions, counters, contexts of pending transactions, slates with their slatepacks, accounts - is there after it was closed and opened again any number of times, by this program or after an upgrade from an older schema. An upgraded wallet can be logged into; a database of a newer schema is refused and left alone. For a transaction, the newest slate of the highest stage is shown with its slatepack.", "quantifier": "For all databases of each schema and all histories of writes and openings.", "why_tests_cant": "Tests create a database and read it in the same session; upgrades of older databases and the second opening of a new one are not tested.", "anchors": ["src/Wallet/WalletDB/Sqlite/SqliteStore.cpp:34-171", "src/Wallet/WalletDB/Sqlite/Tables/VersionTable.cpp:9-50", "src/Wallet/WalletDB/Sqlite/Tables/OutputsTable.cpp:20-102", "src/Wallet/WalletDB/Sqlite/Tables/SlateTable.cpp:19-193", "src/Wallet/WalletDB/Sqlite/Tables/AccountsTable.cpp:15-80", "src/Wallet/WalletDB/Sqlite/Tables/SlateContextTable.cpp:9-45"]}
{"id": "C101", "title": "Wallets and their names", "statement": "A wallet is there, with its seed and database, until it is deleted by its name with a password that decrypts its seed, while it is not open. Creating or deleting a wallet does not change any other one. The name and the password a wallet was created with open it. Changing the password makes the new one valid and the old one not.", "quantifier": "For all names, passwords and histories of create_wallet, login, logout, delete_wallet and change_password calls.", "why_tests_cant": "Names are arbitrary strings used as paths; tests use a few plain ones.", "anchors": ["src/Wallet/WalletDB/Sqlite/SqliteStore.cpp:24-200", "src/Wallet/WalletManagerImpl.cpp:51-84,192-259", "src/API/Wallet/Owner/Handlers/CreateWalletHandler.h:22-73", "src/API/Wallet/Owner/Handlers/LoginHandler.h:22-66", "src/API/Wallet/Owner/Handlers/DeleteWalletHandler.h", "src/API/Wallet/Owner/Handlers/ChangePasswordHandler.h", "include/API/Wallet/Owner/Models/CreateWalletCriteria.h:29-50", "src/Common/Util/FileUtil.cpp:56-138,187-233", "include/Common/Util/StringUtil.h:73-139"]}
{"id": "C102", "title": "Onion and slatepack addresses", "statement": "A text is accepted as an onion address exactly if it is, up to the case of letters, the Base32 text of a valid key, the checksum of that key and version 3; the address shown for a key is accepted and names that key. A slatepack address is accepted only with the prefix of the network and names the key it was made from. No text is accepted as both, and any change of a symbol that changes the key or the checksum is noticed.", "quantifier": "For all 32-byte keys, all texts and all versions; SHA3-256 and the test for valid points are parameters.", "why_tests_cant": "The texts accepted are an infinite set with padding, case and NUL bytes; tests use a handful of real addresses.", "anchors": ["src/Net/Tor/TorAddressParser.cpp:61-174", "include/Net/Tor/TorAddress.h:6-23", "deps/cppcodec/cppcodec/detail/base32.hpp:47-164", "deps/cppcodec/cppcodec/detail/stream_codec.hpp:230-404", "include/Wallet/Models/Slatepack/SlatepackAddress.h:18-40", "src/Crypto/ED25519.cpp:8-21"]}
{"id": "C103", "title": "Payment proofs", "statement": "A sender who gives the receiver's address gets, with the finished transaction, a signature of that address over the amount sent, the kernel of the transaction and the sender's own address; without it finalizing fails. The receiver's wallet gives such a signature only for its own addresses and for the amount it credits, so that whoever holds a proof can show that the receiver's wallet took exactly this payment. The proof can be obtained for every way of sending and is kept with the transaction.", "quantifier": "For all keys, nonces, amounts, slates, addresses and all histories of slates and address changes at the receiver; unforgeability of Ed25519 is a hypothesis.", "why_tests_cant": "A proof is about what cannot happen: no test can show that no other payment yields a valid proof.", "anchors": ["src/Wallet/SlateBuilder/SendSlateBuilder.cpp:95-203", "src/Wallet/SlateBuilder/ReceiveSlateBuilder.cpp:10-206", "src/Wallet/SlateBuilder/FinalizeSlateBuilder.cpp:15-97,213-248", "src/Wallet/WalletImpl.cpp:257-273", "src/Wallet/Keychain/KeyChain.cpp:50-56", "include/Wallet/Models/Slate/SlatePaymentProof.h:8-26", "src/Crypto/ED25519.cpp:56-98", "src/API/Wallet/Owner/Handlers/SendHandler.h:25-83"]}
{"id": "C104", "title": "Opening the chain again and resync", "statement": "Stopping and starting a node changes nothing about its chain but the loss of what waited in memory and of blocks below the horizon. A resync, asked for by the user, keeps the headers: the candidate chain and the header MMR stay as far as the headers in the database are linked; all blocks are fetched anew and the node gets back to the tip.", "quantifier": "For all histories of headers, blocks and restarts before and after, and for all databases, also damaged ones.", "why_tests_cant": "The effect shows over restarts and long after the call; the tests neither restart a node nor resync one.", "anchors": ["src/BlockChain/ChainResyncer.cpp:9-52", "src/BlockChain/ChainState.cpp:38-70", "src/BlockChain/BlockChainImpl.cpp:37-116", "src/Database/BlockDBImpl.cpp:125-146", "src/PMMR/HeaderMMRImpl.cpp:43-82", "src/BlockChain/Processors/BlockProcessor.cpp:205-218", "src/P2P/Sync/StateSyncer.cpp:28-88"]}
{"id": "C105", "title": "Blocks and headers asked for over the node's API", "statement": "A request for a block or header names it by height, by hash or by the commitment of an output, and the answer is the block so named or an error: the block of the confirmed chain at that height, the block with that hash, the block of the confirmed chain that created that unspent output. Text that is none of these is refused, and the REST and JSON-RPC interfaces give the same answer.", "quantifier": "For all texts of a request, all heights, hashes and commitments, and all chains.", "why_tests_cant": "The set of request texts is unbounded, and the disagreement shows only while the candidate chain differs from the confirmed one.", "anchors": ["src/Server/Node/API/BlockAPI.cpp:19-128", "src/Server/Node/API/HeaderAPI.cpp:19-107", "src/API/Node/Handlers/GetBlockHandler.h:16-52", "src/API/Node/Handlers/GetHeaderHandler.h:16-52", "src/BlockChain/ChainState.cpp:113-162", "src/BlockChain/BlockChainImpl.cpp:298-347", "include/Crypto/Models/BigInteger.h:96-105"]}
{"id": "C106", "title": "Outputs of a range of heights", "statement": "Asked for the outputs of a range of heights, the node answers with the blocks of these heights on its confirmed chain, in order, each with its outputs that are still unspent and the height at which they were created; a range above the tip is empty.", "quantifier": "For all chains of blocks, all ranges, and all texts of the two parameters.", "why_tests_cant": "It needs chains in which commitments return and ranges beyond the tip; the API has no tests.", "anchors": ["src/Server/Node/API/ChainAPI.cpp:37-120", "src/BlockChain/BlockChainImpl.cpp:349-370", "src/BlockChain/ChainState.cpp:169-195", "include/Core/Models/DTOs/OutputDTO.h", "include/Core/Models/DTOs/BlockWithOutputs.h"]}
{"id": "C107", "title": "What a node accepts it can send on", "statement": "A message, transaction, header or block that was accepted from one peer and is sent to another, at whatever protocol version each of them speaks, is read there as the same object with the same hashes; and an object has one encoding only, so that nobody on the way can change the bytes of a message without changing what it says.", "quantifier": "For all byte strings accepted, all message types and all pairs of protocol versions.", "why_tests_cant": "Round-trip tests begin with objects that the program built itself; what arrives from the network is any byte string the deserializers happen to accept.", "anchors": ["src/Core/Models/TransactionKernel.cpp:25-106", "src/Core/Models/TransactionBody.cpp:30-87", "src/Core/Models/BlockHeader.cpp:41-99", "src/Core/Models/ProofOfWork.cpp:22-111", "include/Core/Models/Fee.h:40-55", "src/P2P/Messages/", "include/PMMR/Common/Segment.h:73-125", "include/PMMR/Common/BitmapSegment.h:50-122"]}
{"id": "C108", "title": "Kernel signatures checked together are checked one by one", "statement": "The node checks the signatures of all kernels of a transaction or block, and those of a snapshot in groups, with one equation. Kernels with valid signatures always pass, in any order and grouping; a kernel alone passes exactly if its signature is a valid one of its excess over its features, fee and lock height; a kernel that cannot be read makes its group fail; and a group with an invalid signature passes for at most one in as many choices of the library's random coefficients as there are scalars, even if all its signatures were chosen together. A transaction finalized by the wallet passes at every node.", "quantifier": "For all lists of kernels, all groups, all fields of scalars, all challenge functions and all coefficients.", "why_tests_cant": "Signatures that cancel each other are never met by a test; that no choice of many related signatures helps is a statement about all of them and all coefficients.", "anchors": ["include/Core/Validation/KernelSignatureValidator.h:10-59", "src/Crypto/AggSig.cpp:217-312", "src/Crypto/Crypto.cpp:166-169", "src/PMMR/TxHashSetValidator.cpp:283-312", "src/Core/Validation/TxBodyValidator.cpp:13-22"]}
{"id": "C109", "title": "An address a wallet has shown stays usable, and Tor serves the address shown", "statement": "Whatever is done in whatever order (logins, logouts, new addresses, payments received, Tor lost and restarted): a slatepack encrypted to an address the wallet showed, or sent as its own, at any time is opened by it at any later time; a new address is one never shown before; the current address changes only at the wallet's own request; and once Tor runs and has handled its requests, the Tor address of every open session is the address it shows, it leads to the port of that session's server, and nothing else is served.", "quantifier": "For all histories of logins, logouts, address changes, Tor retries, Tor failures and refused requests, for any number of wallets and sessions; all messages and recipients.", "why_tests_cant": "Tests log one wallet in with Tor switched off; the violations need an address change followed by another login or a logout, or a restored wallet, or Tor not ready at the right moment.", "anchors": ["src/Wallet/WalletManagerImpl.cpp:142-186", "src/Wallet/SessionManager.cpp:145-202", "src/Wallet/ForeignController.cpp:8-82", "src/API/Wallet/Foreign/ForeignServer.h:14-67", "src/Net/Tor/TorProcess.cpp:32-196", "src/Wallet/Wallet.cpp:323-346"]}
{"id": "C110", "title": "Commands to Tor are answered by their own answers", "statement": "Every command sent over the control connection gets the answer Tor gave to it: answers of any number of lines are read to their end, errors are reported as errors, and the next command starts with its own answer. So the service of each open wallet is added once, found if it is running, removed when asked for, and Tor is taken for dead only if it does not answer.", "quantifier": "For all answers of the control protocol, all numbers of running services, all numbers of rounds of the Tor thread.", "why_tests_cant": "Tests do not run Tor; the failure needs two services, that is three wallets open at once, and shows as Tor being restarted again and again.", "anchors": ["src/Net/Tor/TorControlClient.cpp:66-93", "src/Net/Tor/TorControl.cpp:98-187", "src/Net/Tor/TorProcess.cpp:32-173", "include/Net/Clients/Client.h:102-126"]}
{"id": "C111", "title": "A ban lasts three hours", "statement": "When a peer is banned, by the node or by the user, connections from its address are refused, it is not chosen for new connections and it is shown as banned, until three hours after the last ban; then, or once the user lifts the ban, it is welcome again. No address is banned that was not the subject of a ban, resynchronising lifts all bans, the peers shown are the peers known, and the commands to show, ban and unban a peer reach the peer named in them.", "quantifier": "For all histories of peers arriving, being heard of, contacted, banned and pardoned, of passes of the peer manager, searches, resyncs and restarts; all addresses and all times.", "why_tests_cant": "Tests do not ban; the failures need a restart, a peer last heard of a week ago, an address never contacted or an IPv6 address.", "anchors": ["src/P2P/Seed/PeerManager.cpp:11-265", "include/P2P/Peer.h", "src/Database/PeerDBImpl.cpp", "src/P2P/Seed/Seeder.cpp:57-211", "src/P2P/P2PServerImpl.cpp:141-153", "src/Server/Node/API/PeersAPI.cpp:14-156"]}
{"id": "C112", "title": "Nodes agree on the hashes of compact blocks and of the proof of work", "statement": "The short id of a kernel is SipHash-2-4 as published, and the graph in which a header's proof of work must be a cycle is the graph that the rest of the header defines by SipHash, for each of the five families; so a header's proof is accepted exactly if it is a cycle of 42 edges of that graph.", "quantifier": "For all keys, messages of all lengths, header contents, families, edge bits below 64 and edge indices; all digests.", "why_tests_cant": "The tests skip the proof of work; a wrong tail word or a wrong rotation shows only for some message lengths or some families, and the families before the last are met only when old blocks are read.", "anchors": ["src/Crypto/ThirdParty/siphash.h:34-124", "src/Crypto/Hasher.cpp:115-120", "src/Core/Models/ShortId.cpp:10-31", "src/PoW/Common.h:27-111", "src/PoW/Cuckatoo.cpp:7-90", "src/PoW/Cuckaroo.cpp:7-82", "src/PoW/Cuckarood.cpp:18-75", "src/PoW/Cuckaroom.cpp:20-98", "src/PoW/Cuckarooz.cpp:19-107"]}
{"id": "C113", "title": "The coinbase a wallet builds for a miner", "statement": "Asked for a coinbase for given fees, the wallet answers with a coinbase output and a coinbase kernel: the kernel is signed, a block that contains both and no other coinbase passes the check of its reward exactly if its kernels pay the fees that were given, and the wallet recognises the output in the chain from its seed alone, with the path it answered and the reward plus the fees as amount. One key index is used up, also when the miner supplies the path.", "quantifier": "For all seeds, fees that leave the reward below 2^64, paths or none, states of the wallet, nonces, and blocks.", "why_tests_cant": "A wrong amount or excess shows only when a miner finds a block with it; the tests do not put wallet-built coinbases with fees into blocks and restore them from the seed.", "anchors": ["src/Wallet/Wallet.cpp:262-321", "src/Wallet/WalletImpl.cpp:163-225", "src/Crypto/AggSig.cpp:48-97", "include/API/Wallet/Foreign/Models/BuildCoinbaseCriteria.h:18-33"]}
{"id": "C114", "title": "What the answer to a payment says, and what the wallet posts", "statement": "A payment request that is refused leaves the wallet as it was. The answer SENT names the payment's slate and means that nothing has gone to the network; the answer FINALIZED means that the payment is recorded as finished and is with the network. The slate always has version 4, and a receiver that lists V4 is never refused. The finished transaction pays all the planned change and spends the coins set aside for it. Whatever strangers send to the wallet's open interface, only transactions of payments its owner started are ever posted, and not those the owner canceled. An address that cannot be read is an error.", "quantifier": "For all wallets, addresses, answers (or silence) of receivers, Tor and the node, and all sequences of sends, receives, finalizations by owner or stranger, cancels, refreshes, reposts and coinbases.", "why_tests_cant": "The tests finalize the honest answer to one payment with a node that accepts; misbehaving receivers, lost connections and a refusing node in between are a product of cases over histories.", "anchors": ["src/API/Wallet/Owner/Handlers/SendHandler.h:25-131", "src/API/Wallet/Owner/Handlers/FinalizeHandler.h", "src/API/Wallet/Owner/Handlers/RepostTxHandler.h:18-32", "src/API/Wallet/Foreign/Handlers/FinalizeTxHandler.h:17-52", "include/API/Wallet/Foreign/Clients/CheckVersionClient.h:19-59", "include/API/Wallet/Foreign/Clients/ReceiveTxClient.h:14-36", "src/Wallet/WalletManagerImpl.cpp:261-382", "src/Wallet/SlateBuilder/FinalizeSlateBuilder.cpp:15-97", "src/Wallet/Models/Slate/Slate.cpp:63-115"]}
{"id": "C115", "title": "Requests and answers of the JSON-RPC interfaces, and what is logged", "statement": "Whatever is posted to one of the interfaces, there is exactly one answer: an object with jsonrpc 2.0, the id of the request if it has one, and either a result or an error. What a client asks is what the method gets, and what the method gives is what the client reads. An unknown method runs nothing and is answered with -32601. Passwords, seeds and session tokens are never written to the log.", "quantifier": "For all bodies (missing, short, not JSON, any JSON value), all sets of methods and all ways a method can end.", "why_tests_cant": "The tests call methods with well-formed requests; bodies range over all JSON, and what must not be in the log is a statement about all requests.", "anchors": ["include/Net/Servers/RPC/RPCServer.h:63-152", "include/Net/Clients/RPC/RPC.h:23-328", "src/Net/Util/HTTPUtil.cpp:101-128", "include/Net/Servers/RPC/RPCMethod.h:5-17", "include/Core/Util/JsonUtil.h:57-89"]}
{"id": "C116", "title": "Settings given through the API, and those in force after a restart", "statement": "What update_config accepts is in force at once, shown by get_config, and in force after the next start too; what it was not given stays. What it refuses has no effect. A peer that is listed as blocked is neither let in nor called, and if peers are listed as allowed (preferred) only they are let in (called). The program starts whatever is in its configuration file; the entries of the file are the settings in force.", "quantifier": "For all configuration files (any JSON value, no JSON, none), all sequences of updates with any parameters, all resolvers and address parsers, all directories.", "why_tests_cant": "The tests load no configuration and never restart; the claims range over all files and all sequences of updates.", "anchors": ["src/Core/Config.cpp:18-118", "src/Core/Config.cpp:136-173", "src/Core/Config.cpp:191-194", "src/Core/Config/P2PConfig.h:38-132", "src/Core/Config/DandelionConfig.h:28-59", "src/Core/Config/NodeConfig.h:36-51", "src/Core/Config/WalletConfig.h:15-43", "src/Core/Config/TorConfig.h:153-177", "src/API/Node/Handlers/UpdateConfigHandler.h:14-180", "src/API/Node/Handlers/GetConfigHandler.h:11-43", "include/Net/IPAddress.h:34-91", "include/Net/IPAddress.h:153-192", "src/P2P/Seed/Seeder.cpp:133-141", "src/P2P/Seed/Seeder.cpp:182-195"]}
{"id": "C117", "title": "Bridges given through the API and the configuration of Tor", "statement": "After any sequence of calls of update_tor_config the configuration of Tor names the bridges, the plugin and the switch the calls ask for and nothing of the kind asked for before: none, snowflake, or the obfs4 bridges given since. Each call is answered with the bridges in use from then on and their type, as get_tor_config shows them. A call that asks for both kinds is refused and changes nothing. The other settings in the file stay.", "quantifier": "For all sequences of calls with any lists of bridges, all configuration files and all data directories.", "why_tests_cant": "The tests never write a Tor configuration; the claims range over all files and all sequences of calls.", "anchors": ["src/Core/Config/TorConfig.h:44-148", "src/Core/Config/TorConfig.h:197-313", "src/API/Wallet/Owner/Handlers/UpdateTorConfigHandler.h:18-74", "src/API/Wallet/Owner/Handlers/GetTorConfigHandler.h:24-29", "src/Core/Config.cpp:201-215", "src/Net/Tor/TorControl.cpp:50-69"]}
{"id": "C118", "title": "The transactions a wallet remembers, and list_txs", "statement": "A transaction a wallet stored is read back as it was stored, by every later version: all of it but what is less than a millisecond, and storing it again changes nothing more; a record in a format newer than the program is refused. list_txs answers with the transactions that were asked for (by id, by range of time, by kind) and no others, each once, in the order they were stored. An entry says what the record says, with exactly the outputs of the wallet that belong to that transaction, and the latest slate. The answer always holds a list.", "quantifier": "For all wallets, all records of all formats, all requests.", "why_tests_cant": "The tests store a few transactions of the newest format and never list them; the claims range over all records, formats and combinations of criteria.", "anchors": ["include/Wallet/WalletTx.h:67-206", "src/Wallet/WalletTxLoader.cpp:6-108", "include/API/Wallet/Owner/Models/ListTxsCriteria.h:24-84", "src/API/Wallet/Owner/Handlers/ListTxsHandler.h:20-41", "include/Wallet/Models/DTOs/WalletTxDTO.h:32-82", "include/Wallet/WalletTxType.h:20-136"]}
{"id": "C119", "title": "What the wallet asks over HTTP and over Tor, and the answers it takes", "statement": "A call to a node elsewhere or to another wallet writes the request that was asked for, and no two requests are written alike. The caller gets the status and body of the answer to this call, however the network cuts it into pieces, and not bytes of an earlier one; a call nothing answers is an error. Through Tor the proxy is asked for the address with .onion and the port; connections that fail are tried again up to five times; the request is written only on a connection to that address, and a refusal by the proxy is not taken for one.", "quantifier": "For all requests, addresses, ports, answers, ways to cut them into pieces, numbers of failed attempts and sequences of calls with one client.", "why_tests_cant": "The tests have no HTTP server and no proxy; the claims range over all answers and all ways the network may deliver them.", "anchors": ["include/Net/Clients/Client.h:29-223", "include/Net/Clients/HTTP/HTTPClient.h:17-122", "include/Net/Clients/HTTP/HTTP.h:35-75", "include/Net/Clients/SOCKS/SOCKSClient.h:20-203", "include/Net/Clients/RPC/RPCClient.h:21-35"]}
{"id": "C120", "title": "A wallet on a node elsewhere", "statement": "A wallet given the address of a node sees the chain of that node: the height and the header of its tip, the header at each height, with all fields as the node has them, and which of the wallet's coins are unspent and where. A transaction it posts is handed to the node's pool as it is, and the wallet is told it was taken exactly if it was. What the node answers cannot harm the wallet's memory.", "quantifier": "For all nodes and chains, headers, heights, transactions, time zones of node and wallet, and answers.", "why_tests_cant": "The tests have no node elsewhere; the claims range over all headers and times, and over the time zones of two machines.", "anchors": ["src/Server/Node/NodeClients/RPCNodeClient.h:17-165", "include/Net/Connections/HttpConnection.h:34-42", "src/Core/Models/BlockHeader.cpp:101-182", "include/Common/Util/TimeUtil.h", "src/API/Node/NodeServer.cpp:13-24", "src/API/Node/Handlers/GetHeaderHandler.h:16-52", "src/API/Node/Handlers/GetTipHandler.h:16-29", "src/API/Node/Handlers/PushTransactionHandler.h:18-57"]}
{"id": "C121", "title": "Strangers at the owner interface", "statement": "Who has neither a token nor the password of a user, whatever they ask of the owner interface and in whatever order, learns nothing of that user's seed, wallet and sessions beyond the name of the wallet, and changes nothing of them. A request changes a user's wallet, seed or sessions only with a token that opens the wallet or with the password. Who gives the right password gets a token that acts in that user's wallet, and the session lasts through all that others do.", "quantifier": "For all worlds (wallets, seeds, sessions, listeners), all choices of users and of their secrets, all sequences of requests with all methods and parameters, whatever the methods do inside an opened wallet.", "why_tests_cant": "That answers do not depend on a secret is a claim about pairs of executions, over all sequences of requests; tests see single executions.", "anchors": ["src/API/Wallet/Owner/OwnerServer.cpp:30-344", "src/API/Wallet/Owner/Handlers/LoginHandler.h:22-62", "src/API/Wallet/Owner/Handlers/LogoutHandler.h:17-30", "src/API/Wallet/Owner/Handlers/RetryTorHandler.h:43-71", "src/API/Wallet/Owner/Handlers/CreateWalletHandler.h:22-73", "src/API/Wallet/Owner/Handlers/DeleteWalletHandler.h:18-32", "src/Wallet/WalletManagerImpl.cpp:43-329", "src/Wallet/SessionManager.cpp:50-253", "src/Wallet/WalletDB/Sqlite/SqliteStore.cpp:34-123"]}
{"id": "C122", "title": "What a sender pays", "statement": "Whatever slate is handed in to be finalized: if the sender's wallet makes a transaction of it, the transaction has one kernel, with the features, the fee and the lock height of the slate the sender sent and a valid signature over them; it has all of the sender's change; it spends each of the sender's coins for this payment unless the slate handed in lists that coin as an output; and what others receive beyond what they spend is exactly the amount of the slate sent (less twice the coins so listed).", "quantifier": "For all stored payments whose coins balance, all slates handed in (any amount, fee, features, offset, participants, commitments), all fields and groups, all hashes and all outcomes of the checks on range proofs and signatures.", "why_tests_cant": "The slate handed in is chosen by the one who gains from a mistake; the claim is an equation over all such slates, which tests sample only with honest ones.", "anchors": ["src/Wallet/SlateBuilder/FinalizeSlateBuilder.cpp:15-211", "src/Wallet/SlateBuilder/TransactionBuilder.h:10-31", "src/Wallet/Models/Slate/Slate.cpp:63-115", "src/Wallet/SlateBuilder/SlateUtil.h:13-48", "src/Core/Validation/TransactionValidator.cpp:12-82"]}
{"id": "C123", "title": "The fee of a finalized payment", "statement": "A payment the sender's wallet has finalized pays the minimum fee, so that nodes take it.", "quantifier": "For all stored payments whose fee is what the wallet charges for its coins, its change and one output of the receiver, and all slates handed in.", "why_tests_cant": "What the receiver adds is arbitrary; tests use receivers that add one output.", "anchors": ["src/Wallet/SlateBuilder/FinalizeSlateBuilder.cpp:147-211", "src/Wallet/SlateBuilder/SendSlateBuilder.cpp:62-74", "src/Core/Models/Transaction.cpp:80-86", "include/Core/Util/FeeUtil.h:8-11"]}
{"id": "C124", "title": "An honest payment goes through", "statement": "If sender and receiver keep to the rules, the receiver's wallet answers the slate the sender's wallet makes, the sender's wallet finalizes the answer, and the transaction passes validation: it spends the coins chosen and nothing else, makes the change and one output of the amount for the receiver and nothing else, has one kernel with the fee of the slate and a valid signature under the sum of both public keys, and the finalized slate has a valid payment proof if one was asked for. A node on whose chain the coins are unspent and mature and the outputs new takes the transaction into its pool.", "quantifier": "For all coins, change, amounts, fees, keys, nonces and offsets of two parties that balance and where nothing cancels; all fields, groups, signature schemes and hashes without collisions among the outputs; all chains and pools that satisfy the stated conditions; both ways of relaying.", "why_tests_cant": "Three programs run on two machines with random secrets; a test shows that one payment went through, not that none gets stuck on the order of commitments, an offset, a number of coins or the sums of the validator.", "anchors": ["src/Wallet/SlateBuilder/SendSlateBuilder.cpp:89-275", "src/Wallet/SlateBuilder/ReceiveSlateBuilder.cpp:10-173", "src/Wallet/SlateBuilder/FinalizeSlateBuilder.cpp:15-248", "src/Wallet/SlateBuilder/SlateUtil.h:13-48", "src/Crypto/Crypto.cpp:54-80", "src/Core/Validation/TransactionValidator.cpp:12-82", "src/TxPool/TransactionPoolImpl.cpp:20-91"]}
{"id": "C125", "title": "The chain state over REST", "statement": "Asked for the last n kernels, outputs or range proofs, a node answers with the hashes of the newest n kernels, and of the newest n unspent outputs and their range proofs, the newest first, and all there are if there are fewer; without a number with ten. The listing of unspent outputs holds those from the leaf asked for on, in order, at most as many as asked for and at most a thousand, and the page asked for behind the last output listed goes on where it ends; asked for without a start the listing begins with the first output. Outputs asked for by commitments are listed if and only if they are unspent, in the order asked for, with the height of their block.", "quantifier": "For all chain states, with any leaves spent, pruned or compacted; all numbers, starts, page sizes and lists of commitments.", "why_tests_cant": "Which positions are leaves, unspent, or pruned from the file depends on the whole history of the chain; a test asks a few questions of one small chain.", "anchors": ["src/Server/Node/API/TxHashSetAPI.cpp:46-272", "src/Server/Node/API/ChainAPI.cpp:127-182", "src/PMMR/Common/MMRHashUtil.cpp:84-107", "src/PMMR/TxHashSetImpl.cpp:258-304"]}
{"id": "C126", "title": "A payment by slatepacks goes through", "statement": "If sender and receiver keep to the rules and exchange the slates as text, encrypted for an address of the receiver's or in plain text one way and encrypted for the sender's address the other way, the receiver's wallet reads the text the sender's wallet made, whichever of its addresses it was made for and however the text was wrapped on the way, and answers with a text the sender's wallet reads and finalizes into a transaction that passes validation, spends the coins chosen, makes the change and the receiver's output and nothing else, with the fee of the slate and the payment proof asked for.", "quantifier": "For all coins, amounts, fees, keys, nonces, offsets and addresses of two parties as in C124; all libraries that satisfy the stated laws; all texts that differ from the one made in white space only.", "why_tests_cant": "The whole way runs through serialization, encryption, base58, armor, the search for the right address and three builders on two machines; a test follows it for one payment.", "anchors": ["src/API/Wallet/Owner/Handlers/SendHandler.h:25-85", "src/API/Wallet/Owner/Handlers/ReceiveHandler.h:19-65", "src/API/Wallet/Owner/Handlers/FinalizeHandler.h:19-55", "include/API/Wallet/Owner/Models/ReceiveCriteria.h:26-40", "include/API/Wallet/Owner/Models/FinalizeCriteria.h:23-54", "include/Wallet/Models/Slatepack/Armor.h:19-64", "src/Wallet/Wallet.cpp:323-346"]}
{"id": "C127", "title": "A payment in a block changes the balances by exactly the payment", "statement": "After a payment received is in a block and the wallet has refreshed, its total is what it was before plus the amount, nothing is left waiting for confirmation or set aside because of it, the payment is listed as received at the height of the block, and once it has the confirmations asked for the coin can be spent. After a payment sent is in a block and the wallet has refreshed, its total is what it was before less the amount and the fee, nothing is set aside any more, and the payment is listed as sent with that fee. A refresh while nothing happened to the wallet's coins leaves the total as it was.", "quantifier": "For all wallets, coins, amounts, strategies and fees; all chains that contain the transaction and agree with the wallet's record of its other coins.", "why_tests_cant": "The result depends on the whole history of records and on four functions that each change part of them; a test looks at one wallet with one coin.", "anchors": ["src/Wallet/WalletRefresher.cpp:19-156", "src/Wallet/WalletRefresher.cpp:158-212", "src/Wallet/SlateBuilder/SendSlateBuilder.cpp:20-130", "src/Wallet/SlateBuilder/ReceiveSlateBuilder.cpp:15-90", "src/Wallet/Wallet.cpp:35-82"]}
{"id": "C128", "title": "An owner's request is carried out as it was put", "statement": "A request to send, written by a client of the API, is read as the amount, base of the fee, number of change outputs, coins, address and way to post it that the client put into it, be the numbers written as numbers or as text, and a request to estimate the fee is read in the same way. A request to cancel transaction n cancels that transaction and no other or fails; a request to post transaction n again posts that one and says success exactly if it was taken. Numbers the wallet cannot represent are refused.", "quantifier": "For all requests and all wallets.", "why_tests_cant": "The range of JSON a client can send is unbounded; tests use well-formed samples.", "anchors": ["include/API/Wallet/Owner/Models/SendCriteria.h:31-83", "include/API/Wallet/Owner/Models/EstimateFeeCriteria.h:23-44", "include/API/Wallet/Owner/Models/CancelTxCriteria.h:20-46", "include/API/Wallet/Owner/Models/RepostTxCriteria.h:18-50", "include/Wallet/Models/DTOs/SelectionStrategyDTO.h:14-47", "include/Wallet/Models/DTOs/PostMethodDTO.h:14-34", "src/API/Wallet/Owner/Handlers/CancelTxHandler.h:19-33", "src/API/Wallet/Owner/Handlers/RepostTxHandler.h:20-34"]}
{"id": "C129", "title": "The outputs listed are those the wallet holds, and they add up to the balance", "statement": "list_outputs lists each output that is neither spent nor canceled exactly once, with its commitment, amount, status, height, position and transaction, as a client reads them. The amounts listed as locked add up to what the balance shows as locked, those without confirmations to what it shows as unconfirmed, and those listed as spendable to what it shows as spendable. An output listed as spendable can be spent.", "quantifier": "For all wallets.", "why_tests_cant": "Two functions with different rules read the same records; a test sees one list of a few outputs, mostly of one status.", "anchors": ["src/Wallet/Wallet.cpp:35-70", "src/Wallet/Wallet.cpp:110-128", "include/Wallet/Models/DTOs/WalletOutputDTO.h:39-104", "include/Wallet/Enums/OutputStatus.h:15-82", "src/API/Wallet/Owner/Handlers/ListOutputsHandler.h:16-41", "include/Wallet/Models/DTOs/WalletBalanceDTO.h:28-35"]}
{"id": "C130", "title": "Opening the block database loses nothing", "statement": "A block database made by an older version, which has some of the tables only, or one whose creation was interrupted at any point, is opened by the current version: each table that is in use holds what was stored in it, the missing ones are there and empty, and what is written to one table changes that table only. A database with tables in a different order or with unknown ones is refused rather than read wrongly.", "quantifier": "For all lists of tables, all contents and all points of interruption.", "why_tests_cant": "The handles are matched to tables by position in lists built in two passes; tests open a fresh directory only.", "anchors": ["src/Database/RocksDB/RocksDBFactory.h:18-110", "src/Database/BlockDBImpl.cpp:29-45", "src/Database/RocksDB/RocksDB.h:313-325"]}
{"id": "C131", "title": "Strangers cannot touch the coins", "statement": "Whatever requests reach the wallet at its Tor address, in whatever number and order, none of its outputs is changed or removed, what is added waits for confirmation, what can be spent, what is too young and what is set aside are shown as before, the coins a payment can use are the same, and the secrets kept for payments under way stay. Nor do such requests change the total shown other than by payments really made.", "quantifier": "For all wallets, all sequences of requests and all contents of them.", "why_tests_cant": "The number and order of requests is unbounded and they come from adversaries.", "anchors": ["src/API/Wallet/Foreign/ForeignServer.cpp:120-241", "src/Wallet/SlateBuilder/ReceiveSlateBuilder.cpp:10-105", "src/API/Wallet/Foreign/Handlers/FinalizeTxHandler.h:24-60", "src/Wallet/Wallet.cpp:35-70"]}
{"id": "C132", "title": "Wallets that talk over Tor understand each other", "statement": "When a wallet asks another one over Tor to receive or to finalize a payment, the other gets exactly the slate sent, the first one reads exactly the answer or, if it was refused, an error that says why, and the other wallet changes as receiving or finalizing changes it and not otherwise; requests that cannot be read change nothing. Before sending, the two agree on the highest slate version both know; a wallet that knows none is not sent anything. A miner's request for a coinbase in the documented form is carried out.", "quantifier": "For all slates this program makes, all wallets and answers, all lists of versions, all requests.", "why_tests_cant": "Both ends, the transport and the two directions of JSON have to be looked at together, for unbounded data.", "anchors": ["src/API/Wallet/Foreign/Handlers/ReceiveTxHandler.h:17-64", "src/API/Wallet/Foreign/Handlers/FinalizeTxHandler.h:17-54", "src/API/Wallet/Foreign/Handlers/BuildCoinbaseHandler.h:14-25", "src/API/Wallet/Foreign/Handlers/CheckVersionHandler.h:7-20", "include/API/Wallet/Foreign/Clients/CheckVersionClient.h:19-59", "include/API/Wallet/Foreign/Clients/ReceiveTxClient.h:14-37", "include/API/Wallet/Foreign/Models/ReceiveTxRequest.h:23-56", "include/API/Wallet/Foreign/Models/BuildCoinbaseCriteria.h:17-30", "src/API/Wallet/Foreign/ForeignServer.cpp:174-241"]}
{"id": "C133", "title": "The command line", "statement": "The options in the help text, in any order and number, with a value behind `=` or as the next argument and among any other words, mean what the help text says; anything else is refused or ignored without harm, and the program always gets past its command line.", "quantifier": "For all lists of arguments.", "why_tests_cant": "Arguments are unbounded in number and content; the loop that reads them may never end.", "anchors": ["src/Server/opt.h:31-62", "src/Server/ketopt.h:56-121", "src/Server/Main.cpp:27-58"]}
{"id": "C134", "title": "A served snapshot is the chain state asked for", "statement": "When a peer asks for the chain state at a header, the archive this node sends unpacks at the peer to the files of the chain state at that header: hashes and data, unspent leaves, prune list.", "quantifier": "For all chain states, all histories of the node since it was set up, all headers, all contents of the peer's directory.", "why_tests_cant": "The files served depend on how the node came by its state long before; sizes and contents are unbounded.", "anchors": ["src/PMMR/TxHashSetManager.cpp:91-156", "src/PMMR/Zip/Zipper.cpp:10-94", "src/PMMR/OutputPMMR.h:14-42", "src/PMMR/Common/PruneableMMR.h:139-149", "src/PMMR/Common/LeafSet.h:41-55", "src/PMMR/Zip/TxHashSetZip.cpp:16-120"]}
{"id": "C135", "title": "A peer is banned over a transaction only if the transaction breaks the rules", "statement": "A peer that relays transactions is banned for one exactly if the transaction, not being a duplicate, too cheap or locked, breaks the rules for transactions as such (weight, order, cut-through, proofs, signatures, balance); never because its inputs are unknown or spent, because of other pool contents, or because of the state of this node. A node that relays what it admitted itself is banned by no other node.", "quantifier": "For all transactions, all contents of pools and chain, all orders of arrival and processing, any number of peers.", "why_tests_cant": "Bans depend on the interleaving of messages, blocks and the processing thread, and on every check of the validator on every transaction.", "anchors": ["src/P2P/Pipeline/TransactionPipe.cpp:33-86", "src/BlockChain/BlockChainImpl.cpp:205-240", "src/TxPool/TransactionPoolImpl.cpp:20-91", "src/Core/Validation/TransactionValidator.cpp:12-82"]}
{"id": "C136", "title": "Merging valid transactions gives a valid transaction", "statement": "The transaction a node makes by merging valid transactions of its pool, as it does for the stem and for broadcasting, passes the same checks at other nodes, and pays the fees of all of them together.", "quantifier": "For all lists of valid transactions without common inputs or common outputs, including chains of transactions that spend each other's outputs, whose merger is not too heavy.", "why_tests_cant": "Lists of any length with any spending pattern among them; balance after cut-through is an algebraic fact.", "anchors": ["include/Core/Util/TransactionUtil.h:11-109", "src/Core/Validation/TransactionValidator.cpp:12-82", "src/Core/Validation/TxBodyValidator.cpp:13-80", "include/Core/Validation/KernelSumValidator.h:24-98"]}
{"id": "C137", "title": "The wallet follows its node's chain through reorganisations", "statement": "However blocks come and go, what the wallet shows after asking its node depends on the chain as it is then: an output that is on the chain can be spent unless it is set aside for a payment under way, one that has left the chain is not counted, a payment undone is not listed as done, and the heights shown are those of the chain.", "quantifier": "all wallets, outputs and transactions, and every sequence of answers of the node, of any length", "why_tests_cant": "Reorganisations are rare and come in every order relative to the moments the wallet asks; a test plays one or two of them.", "anchors": ["src/Wallet/WalletRefresher.cpp:19-74", "src/Wallet/WalletRefresher.cpp:104-156", "src/Wallet/WalletRefresher.cpp:158-212"]}
{"id": "C138", "title": "What a node sends to a peer arrives, whole, in order and once", "statement": "Messages handed to an open connection, by however many threads and at whatever moments, are written to it whole, each once, in the order in which they were handed over, and none is left waiting for ever while the connection works.", "quantifier": "all messages, any number of threads and calls, every interleaving of their steps with the completion of writes, and any number of bytes the system takes at a time", "why_tests_cant": "The outcome depends on the interleaving of threads and on how much the system takes at once; tests see a few interleavings and small messages.", "anchors": ["src/Net/Socket.cpp:184-227", "include/Common/SharedQueue.h:16-60", "src/P2P/Connection.cpp:52-67"]}
{"id": "C139", "title": "The threads of a node never block each other for good", "statement": "Whatever a node is doing at the same time \u2014 handling messages, adding blocks and headers, answering queries, posting and relaying transactions, looking after its connections \u2014 some thread that has work left can always go on.", "quantifier": "any number of threads, any sequence of operations in each, and every order in which they run", "why_tests_cant": "A deadlock needs two threads to be at particular lines at the same moment; tests run mostly one thread at a time.", "anchors": ["src/BlockChain/ChainState.cpp:268-288", "src/BlockChain/BlockChainImpl.cpp:205-240", "src/P2P/Dandelion.cpp:119-178", "src/Server/Node/NodeClients/DefaultNodeClient.h:123-159", "src/P2P/ConnectionManager.cpp:147-217", "src/P2P/Connection.cpp:21-30", "src/P2P/Connection.cpp:176-220", "src/P2P/Seed/Seeder.cpp:73-104"]}
{"id": "C140", "title": "After taking over a snapshot a node knows exactly the outputs of the snapshot", "statement": "When a node has taken over a snapshot of the chain state, asking for an output by its commitment finds it exactly if it is unspent in the snapshot, with its place and the height of the block that created it; so blocks that spend it are judged as by a node that saw all blocks.", "quantifier": "all snapshots, chains of headers and earlier contents of the node's database", "why_tests_cant": "The outcome depends on what the database held before the snapshot, over the whole earlier life of the node; tests take over snapshots with a new database.", "anchors": ["src/PMMR/TxHashSetImpl.cpp:232-256", "src/BlockChain/Processors/TxHashSetProcessor.cpp:49-71", "src/PMMR/TxHashSetImpl.cpp:109-129", "src/BlockChain/ChainResyncer.cpp:46-52"]}
{"id": "C141", "title": "A block or transaction sent at protocol version 3 is read as it was meant", "statement": "From protocol version 3 on a peer sends only the commitment of each input. The node completes it with the features of the output that is spent, whenever the message arrives and whatever the node is doing, so that the block or transaction it keeps and passes on to older peers is the one that was sent.", "quantifier": "all blocks and transactions, all chain states, whether or not the chain state is open", "why_tests_cant": "What a message is read as depends on the chain state at that moment; round-trip tests use a chain that has all outputs.", "anchors": ["src/BlockChain/CoinView.cpp:5-19", "src/Core/Models/TransactionInput.cpp:26-37", "src/BlockChain/Processors/TxHashSetProcessor.cpp:31-60", "src/P2P/MessageProcessor.cpp:233-256", "src/PMMR/TxHashSetImpl.cpp:328-337"]}
{"id": "C142", "title": "A node that is asked to stop stops", "statement": "When the node is asked to stop (Ctrl-C, or the shutdown request), each of its threads finishes what it is doing and ends, the node waits for all of them before it closes its connections and its files, and then the program ends. It never hangs, whatever its threads are doing at that moment.", "quantifier": "all things the threads may be doing, any number of snapshots sent and of blocks processed together, all orders in which the threads run", "why_tests_cant": "The moment at which the node is asked to stop and the order in which threads run cannot be chosen by a test.", "anchors": ["src/P2P/P2PServerImpl.cpp:30-38", "src/P2P/Seed/Seeder.cpp:17-27", "src/P2P/Seed/Seeder.cpp:122-163", "src/P2P/Pipeline/BlockPipe.cpp:14-62", "src/P2P/Pipeline/TxHashSetPipe.cpp:19-23", "src/P2P/ConnectionManager.cpp:29-45"]}
{"id": "C143", "title": "A payment that waits in the pool stays until it is on the chain or can no longer be", "statement": "A transaction accepted into the public pool stays there, and is offered to peers and for mining, until a block of the chain has it, or until a block of the chain spends one of its inputs or makes it invalid. Blocks that do not become part of the chain do not remove it, and when a block that had it is undone for a heavier chain it waits again. Accepting blocks does not depend on what waits.", "quantifier": "all pools, chains and ledgers, all sequences of blocks, submissions and relays, all branches", "why_tests_cant": "Tests of the pool give it blocks directly; tests of the chain have an empty pool. What a branch that loses does to the pool is seen in neither.", "anchors": ["src/BlockChain/Processors/BlockProcessor.cpp:41-84", "src/BlockChain/Processors/BlockProcessor.cpp:132-225", "src/TxPool/Pool.cpp:135-166", "src/TxPool/TransactionPoolImpl.cpp:113-123", "src/BlockChain/ChainState.cpp:245-266"]}
{"id": "C144", "title": "Peers that ask for snapshots at the same time each get theirs, and a refused request does not end the conversation", "statement": "When several peers have asked the node for a snapshot of the chain state, then in whatever order the node works on the requests, each peer for which a snapshot can be made is told the size of an archive and sent the bytes of that archive, and no others. After the request, whether it was met or not, the node answers the peer's other messages again.", "quantifier": "all numbers of peers, headers and archives, all orders in which the threads run, all archives left from earlier", "why_tests_cant": "A test serves one snapshot at a time. That two threads meet at one file name shows only in some orders of their steps, and that a connection stays mute shows only in what is not sent later.", "anchors": ["src/P2P/Pipeline/TxHashSetPipe.cpp:153-230", "src/PMMR/TxHashSetManager.cpp:91-156", "src/BlockChain/BlockChainImpl.cpp:174-185", "src/PMMR/Zip/Zipper.cpp:10-45", "src/P2P/Connection.cpp:52-67", "src/Common/Util/FileUtil.cpp:235-245"]}
{"id": "C145", "title": "A node that needs the state asks one peer after another, and bans only those that failed it", "statement": "While a node needs the state it waits for one peer at a time. A peer that has sent nothing for ten seconds, is gone, or is not done after two hours is replaced by the peer of most work, also at the second and later attempts. Only peers that did not deliver, or delivered an archive that is not valid, are banned; a peer whose state was accepted is not.", "quantifier": "all runs: all orders of requests, archives, failures, headers and blocks, all peers, heights and times", "why_tests_cant": "Tests of the sync thread need peers and hours of time; a second sync in the life of one process, or a second attempt after a broken one, is not set up.", "anchors": ["src/P2P/Sync/StateSyncer.cpp:8-116", "src/P2P/Sync/StateSyncer.h:17-30", "src/P2P/Pipeline/TxHashSetPipe.cpp:67-151", "src/P2P/Sync/Syncer.cpp:49-101", "src/P2P/ConnectionManager.cpp:135-145"]}
