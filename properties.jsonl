{"id": "C01", "title": "Variable-length integers round-trip", "statement": "Writing any 64-bit count as a variable-length integer and reading it back from a stream yields the same count, leaves exactly the bytes that followed it, and the number of bytes written equals the size the library announces for that count.", "quantifier": "every integer below 2^64 and every following byte string", "why_tests_cant": "the domain has 2^64 values and every suffix; the interesting values sit on boundaries a sample can miss and a wrong boundary only shows on them", "anchors": ["src/gigamonkey/p2p/var_int.cpp: var_int::write, var_int::read", "src/gigamonkey/include/gigamonkey/p2p/var_int.hpp: var_int::size"]}
{"id": "C02", "title": "Variable-length integer encoding is shortest and unambiguous", "statement": "The bytes written for a count are the shortest of all byte strings that the reader accepts as that count, and no count's encoding is a proper prefix of another's.", "quantifier": "every integer below 2^64, every byte string the reader accepts", "why_tests_cant": "minimality quantifies over all encodings of all counts; tests only compare a few pairs", "anchors": ["src/gigamonkey/p2p/var_int.cpp: var_int::write, var_int::read", "src/gigamonkey/include/gigamonkey/p2p/var_int.hpp: var_int::size"]}
{"id": "C03", "title": "Block headers are a bijection with 80-byte strings", "statement": "Serialising a header gives exactly 80 bytes, reading them gives the header back, and any 80 bytes read as a header serialise to the same 80 bytes.", "quantifier": "every header value and every 80-byte string", "why_tests_cant": "2^640 values; a swapped pair of equal-width fields round-trips under sampling of symmetric headers", "anchors": ["src/gigamonkey/timechain.cpp: header::write, header::header(slice)", "src/gigamonkey/include/gigamonkey/timechain.hpp: header, operator<<, operator>>"]}
{"id": "C04", "title": "Transactions round-trip through the wire format", "statement": "Reading the serialisation of a transaction gives the same transaction back, whatever bytes follow it in the stream, for any number of inputs and outputs and any script contents.", "quantifier": "every transaction with fields in their machine ranges and fewer than 2^31 inputs, outputs and bytes per script (reading a longer count overflows a signed counter, which is shown separately); every following byte string", "why_tests_cant": "unbounded lists of unbounded scripts; the count prefixes change width at sizes tests do not reach", "anchors": ["src/gigamonkey/timechain.cpp: transaction::transaction(slice), transaction::write", "src/gigamonkey/include/gigamonkey/timechain.hpp: operator<<(writer, transaction), operator>>(reader, transaction)"]}
{"id": "C05", "title": "Announced transaction and block sizes are exact", "statement": "The size the library reports for an input, output, transaction or block equals the number of bytes of its serialisation, so fee and limit computations based on it are exact.", "quantifier": "every input, output, transaction and block", "why_tests_cant": "size formula must agree at every combination of list lengths and script lengths, including the var-int width changes", "anchors": ["src/gigamonkey/include/gigamonkey/timechain.hpp: input::serialized_size, output::serialized_size, transaction::serialized_size, block::serialized_size"]}
{"id": "C06", "title": "Truncated transactions are rejected", "statement": "Deserialising any strict prefix of a serialised transaction yields the library's 'invalid' transaction and never some other transaction that passes the validity check.", "quantifier": "every transaction with fewer than 2^31 inputs, outputs and bytes per script; every strict prefix of its serialisation", "why_tests_cant": "there are as many prefixes as bytes, for every transaction", "anchors": ["src/gigamonkey/timechain.cpp: transaction::transaction(slice)"]}
{"id": "C07", "title": "Transaction serialisation is injective", "statement": "Two different transactions never have the same serialisation, and the concatenation of serialised transactions splits in only one way, so a transaction id computed from the bytes identifies one transaction up to hash collisions.", "quantifier": "every pair (and every pair of lists) of transactions with fewer than 2^31 inputs, outputs and bytes per script", "why_tests_cant": "a property of pairs over an unbounded domain", "anchors": ["src/gigamonkey/include/gigamonkey/timechain.hpp: operator<<(writer, transaction)", "src/gigamonkey/timechain.cpp: transaction::id"]}
{"id": "C08", "title": "Blocks round-trip and expose their transactions", "statement": "Reading a serialised block returns the same header and the same transactions in the same order.", "quantifier": "every block with fewer than 2^31 transactions, each with fewer than 2^31 inputs, outputs and bytes per script", "why_tests_cant": "unbounded lists of unbounded transactions", "anchors": ["src/gigamonkey/timechain.cpp: block::block(slice), block::write", "src/gigamonkey/include/gigamonkey/timechain.hpp: block"]}
{"id": "C09", "title": "Extended-format transactions round-trip and agree with the plain transaction", "statement": "A transaction written in extended format is read back unchanged, its announced size is exact, dropping the previous outputs gives the plain transaction, and bytes without the extended-format marker are refused.", "quantifier": "every extended transaction; every byte string without the marker", "why_tests_cant": "unbounded inputs; the refusal clause quantifies over every malformed byte string", "anchors": ["src/gigamonkey/pay/extended.cpp: extended::transaction", "src/gigamonkey/include/gigamonkey/pay/extended.hpp"]}
{"id": "C10", "title": "Pushing data produces exactly that data", "statement": "The instruction built to push a byte string pushes exactly that byte string when its serialisation is read back, for every length the script format can carry.", "quantifier": "every byte string shorter than 2^31 (at 2^31 the signed length overflows; shown separately)", "why_tests_cant": "length classes change at 75/255/65535 and one-byte values 1..16 and 0x81 are special; a sample misses boundaries", "anchors": ["src/gigamonkey/script/instruction.cpp: instruction::push, instruction::read, instruction::push_data"]}
{"id": "C11", "title": "Instructions built by the library count as minimal pushes", "statement": "The instruction the library builds to push any byte string passes the library's own minimal-push check (so scripts it builds are accepted where minimal pushes are required).", "quantifier": "every byte string shorter than 2^31 (at 2^31 the signed length overflows; shown separately)", "why_tests_cant": "fails, if at all, only at isolated lengths such as 256 or 65536", "anchors": ["src/gigamonkey/script/instruction.cpp: is_minimal_push, instruction::push"]}
{"id": "C12", "title": "Announced push sizes are exact", "statement": "The minimal push size announced for a byte string of given length equals the number of bytes the library writes when pushing it.", "quantifier": "every byte string shorter than 2^31 (at 2^31 the signed length overflows; shown separately)", "why_tests_cant": "the formula is piecewise over lengths; errors sit only on the piece boundaries", "anchors": ["src/gigamonkey/script/instruction.cpp: instruction::min_push_size, instruction::serialized_size", "src/gigamonkey/include/gigamonkey/script/instruction.hpp"]}
{"id": "C13", "title": "Compile and decompile are inverse", "statement": "Decompiling the compiled bytes of a program whose instructions are well formed returns the same program, and compiling the result of decompiling any script the decompiler accepts returns the original script.", "quantifier": "every program of well-formed instructions with properly nested conditionals; every byte string shorter than 4 GiB", "why_tests_cant": "unbounded programs; second direction quantifies over every byte string", "anchors": ["src/gigamonkey/script/instruction.cpp: compile, decompile, instruction::read"]}
{"id": "C14", "title": "The instruction reader of the running machine agrees with the decompiler", "statement": "On every script that decompiles, the program counter used during execution visits exactly the instructions of the decompiled program, in order, and stops at the end; on any script at all it never moves past the end of the script.", "quantifier": "every byte string shorter than 2^31", "why_tests_cant": "two separately written parsers must agree on every input; the disagreement region is the truncated-push cases", "anchors": ["src/gigamonkey/script/counter.cpp: program_counter::read_instruction", "src/gigamonkey/include/gigamonkey/script/counter.hpp: program_counter::next", "src/gigamonkey/script/instruction.cpp: decompile"]}
{"id": "C15", "title": "Script execution always terminates", "statement": "Running any pair of unlocking and locking scripts under any configuration finishes after at most as many machine steps as there are instructions, plus one.", "quantifier": "every pair of scripts with 2*|unlocking|+|locking|+2 below 2^31 bytes, every configuration and signature-checker behaviour", "why_tests_cant": "termination over every script", "anchors": ["src/gigamonkey/script/interpreter.cpp: interpreter::run, step", "src/gigamonkey/script/machine.cpp: machine::step"]}
{"id": "C16", "title": "Pre-genesis stack limits always hold", "statement": "With the pre-genesis configuration, at every point of any execution that has not reported an error, the two stacks together hold at most 1000 elements and no element exceeds 520 bytes.", "quantifier": "every script, every number of steps", "why_tests_cant": "an invariant over all executions", "anchors": ["src/gigamonkey/script/stack.cpp", "src/gigamonkey/include/gigamonkey/script/stack.hpp: limited_two_stack<false>", "src/gigamonkey/script/machine.cpp: machine::step"]}
{"id": "C17", "title": "Post-genesis stack memory accounting is exact and bounded", "statement": "With the post-genesis configuration, at every point of any execution that has not reported an error the memory figure the machine keeps equals the sum over both stacks of element size plus 32, and never exceeds the configured maximum.", "quantifier": "every script, every number of steps, every memory limit", "why_tests_cant": "an invariant over all executions", "anchors": ["src/gigamonkey/script/stack.cpp", "src/gigamonkey/include/gigamonkey/script/stack.hpp: limited_two_stack<true>", "src/gigamonkey/script/machine.cpp: machine::step"]}
{"id": "C18", "title": "The operation limit is enforced", "statement": "No execution that has executed more non-push operations than the configured maximum is ever reported as successful, and the operation count never decreases.", "quantifier": "every script and configuration, every number of steps", "why_tests_cant": "invariant over all executions", "anchors": ["src/gigamonkey/script/machine.cpp: machine::step"]}
{"id": "C19", "title": "Malformed scripts fail cleanly: no undefined behaviour during execution", "statement": "No script, however malformed, makes an execution step read or erase outside the stack or the script: every bad stack access is reported as a script error.", "quantifier": "every machine state and every next instruction", "why_tests_cant": "needs every opcode in every stack depth", "anchors": ["src/gigamonkey/script/machine.cpp: machine::step", "src/gigamonkey/script/stack.cpp: erase, insert", "src/gigamonkey/script/interpreter.cpp: catch_all_errors"]}
{"id": "C20", "title": "Conditionals select exactly one branch", "statement": "For `x IF a ELSE b ENDIF c` the machine behaves as `a c` if x is true and as `b c` if x is false (with NOTIF the other way), for balanced a, b, c.", "quantifier": "every initial state, every value x, all balanced branch programs", "why_tests_cant": "unbounded nesting and contents", "anchors": ["src/gigamonkey/script/machine.cpp: machine::step OP_IF OP_NOTIF OP_ELSE OP_ENDIF"]}
{"id": "C21", "title": "A verifying opcode that succeeds lets the script continue", "statement": "VERIFY, EQUALVERIFY, NUMEQUALVERIFY, CHECKSIGVERIFY and CHECKMULTISIGVERIFY that succeed consume their arguments and continue with the next instruction; they never decide the whole script's success.", "quantifier": "every state in which the check succeeds, every remaining script", "why_tests_cant": "the remaining script is arbitrary; a halt-with-success bug is invisible when the remaining script would have succeeded too", "anchors": ["src/gigamonkey/script/machine.cpp: machine::step OP_VERIFY OP_EQUALVERIFY OP_NUMEQUALVERIFY OP_CHECKSIGVERIFY OP_CHECKMULTISIGVERIFY"]}
{"id": "C22", "title": "Lock-time opcodes are enforced exactly when enabled", "statement": "When the lock-time (or sequence) flag is set in the configuration, CHECKLOCKTIMEVERIFY (CHECKSEQUENCEVERIFY) fails the script unless the transaction satisfies it, and when the flag is not set it is a no-op.", "quantifier": "every configuration, stack and transaction", "why_tests_cant": "quantifies over every flag combination and operand", "anchors": ["src/gigamonkey/script/machine.cpp: machine::step OP_CHECKLOCKTIMEVERIFY OP_CHECKSEQUENCEVERIFY", "src/gigamonkey/script.cpp: redemption_document::check_locktime, check_sequence"]}
{"id": "C23", "title": "Stack opcodes do what their names say", "statement": "DUP, DROP, NIP, OVER, PICK, ROLL, ROT, SWAP, TUCK, 2DROP, 2DUP, 3DUP, 2OVER, 2ROT, 2SWAP, IFDUP, DEPTH, TOALTSTACK and FROMALTSTACK transform any sufficiently deep stack to the documented result, leave deeper elements and the other stack unchanged, and report an invalid-stack error on any shallower stack.", "quantifier": "every stack of every depth, every configuration", "why_tests_cant": "all stacks of all depths", "anchors": ["src/gigamonkey/script/machine.cpp: machine::step stack opcodes"]}
{"id": "C24", "title": "Execution success is decided only by an empty error and a true top element", "statement": "A script evaluation is reported as verified exactly when no error occurred and either the script ran to its end with a true top element (and, if clean stack is demanded, exactly one element) or a post-genesis top-level RETURN was executed.", "quantifier": "every script pair and configuration", "why_tests_cant": "an if-and-only-if over all executions", "anchors": ["src/gigamonkey/script/machine.cpp: machine::step", "src/gigamonkey/script/interpreter.cpp", "src/gigamonkey/include/gigamonkey/script.hpp: result"]}
{"id": "C25", "title": "Bit shift opcodes shift the bit string and keep the length", "statement": "LSHIFT and RSHIFT by n move every bit of the operand by n places, fill with zeros, keep the number of bytes, and give all zeros once n reaches the number of bits.", "quantifier": "every byte string and every shift amount", "why_tests_cant": "unbounded operand length and shift amount; carries cross byte boundaries only for n not a multiple of 8", "anchors": ["src/gigamonkey/numbers.cpp: left_shift, right_shift", "src/gigamonkey/script/machine.cpp: OP_LSHIFT, OP_RSHIFT"]}
{"id": "C26", "title": "CAT and SPLIT are inverse", "statement": "Splitting a byte string at any position in range and concatenating gives it back; concatenating two strings and splitting at the first one's length gives the two strings; positions out of range are reported as errors.", "quantifier": "every byte string and position", "why_tests_cant": "all strings and positions", "anchors": ["src/gigamonkey/numbers.cpp: cat, split, left, right", "src/gigamonkey/script/machine.cpp: OP_CAT, OP_SPLIT, OP_LEFT, OP_RIGHT"]}
{"id": "C27", "title": "Cutting a transaction down to what a signature covers: output flags", "statement": "With the NONE flag the signed message does not depend on the outputs; with SINGLE it depends on no output but the one with the signer's index; with ANYONECANPAY it depends on no input but the signer's.", "quantifier": "every pair of transactions differing only in the parts said not to matter, every index and flag byte", "why_tests_cant": "non-interference: quantifies over pairs of transactions", "anchors": ["src/gigamonkey/sighash.cpp: Amaury::write, write_original", "src/gigamonkey/include/gigamonkey/sighash.hpp"]}
{"id": "C28", "title": "A signature with all flags off commits to the whole transaction", "statement": "With ALL (no ANYONECANPAY) in the fork-id scheme, two documents with the same signed message have the same version, outpoints, sequence numbers, outputs, lock time, spent value, script code, signer's outpoint and flag byte, barring a hash collision.", "quantifier": "every pair of documents; hash functions assumed only collision free on the strings compared", "why_tests_cant": "injectivity over pairs of unbounded transactions", "anchors": ["src/gigamonkey/sighash.cpp: Amaury::write", "src/gigamonkey/include/gigamonkey/sighash.hpp"]}
{"id": "C29", "title": "Signing with SINGLE and no matching output is safe", "statement": "Computing the signed message for SINGLE with an input index that has no matching output never reads outside the output list, and the digest signed is then the zero digest. Otherwise, for one of the inputs and a value that is not negative, it is the hash of the message.", "quantifier": "every transaction, input index and flag", "why_tests_cant": "an error path for every index/length pair", "anchors": ["src/gigamonkey/sighash.cpp: Amaury::write", "src/gigamonkey/signature.cpp: signature::hash"]}
{"id": "C30", "title": "Every leaf's Merkle proof checks against the root", "statement": "For any non-empty list of leaves, the proof produced for any of its leaves derives the same root as the one computed from the list.", "quantifier": "every non-empty list of digests, every index, every two-to-one hash", "why_tests_cant": "all list lengths including every odd-length level", "anchors": ["src/gigamonkey/merkle.cpp: root, tree", "src/gigamonkey/include/gigamonkey/merkle/tree.hpp", "src/gigamonkey/include/gigamonkey/merkle/proof.hpp"]}
{"id": "C31", "title": "A Merkle proof identifies the leaf", "statement": "If two proofs for the same position and of the same length derive the same root, then they prove the same leaf with the same siblings, barring a collision of the pair hash.", "quantifier": "every pair of proofs and every pair hash, up to a collision between pairs on the two ways to the root", "why_tests_cant": "pairs of proofs of unbounded length", "anchors": ["src/gigamonkey/include/gigamonkey/merkle/proof.hpp: path::derive_root", "src/gigamonkey/merkle.cpp: root"]}
{"id": "C32", "title": "The Merkle server answers every index with a valid proof", "statement": "A server built from a list of leaves reports the list's root and, for every leaf index, returns a proof of that leaf that checks against the root; other indices give nothing.", "quantifier": "every list of leaves and index", "why_tests_cant": "all lengths; the flat storage layout makes index arithmetic errors size dependent", "anchors": ["src/gigamonkey/include/gigamonkey/merkle/server.hpp", "src/gigamonkey/merkle.cpp: server"]}
{"id": "C33", "title": "BUMP paths round-trip through binary", "statement": "A BUMP read from its own serialisation is the same BUMP and its announced size is exact.", "quantifier": "every BUMP of depth below 256 with level widths below 2^64", "why_tests_cant": "unbounded trees", "anchors": ["src/gigamonkey/merkle/BUMP.cpp: BUMP write/read", "src/gigamonkey/include/gigamonkey/merkle/BUMP.hpp"]}
{"id": "C34", "title": "A BUMP made from a Merkle branch has that branch's root", "statement": "Converting a branch to a BUMP gives a BUMP whose root is the root derived from the branch, and from which the branch can be extracted again.", "quantifier": "every branch of every depth and index", "why_tests_cant": "all depths and indices", "anchors": ["src/gigamonkey/merkle/BUMP.cpp: to_path, root, combine, step", "src/gigamonkey/include/gigamonkey/merkle/BUMP.hpp"]}
{"id": "C35", "title": "TSC Merkle proofs round-trip", "statement": "A Merkle proof in the standard binary format is read back as the same proof, for every combination of flags and every index.", "quantifier": "every proof, every flag combination", "why_tests_cant": "unbounded branch length and index", "anchors": ["src/gigamonkey/merkle/serialize.cpp: proofs_serialization_standard"]}
{"id": "C36", "title": "Checksummed strings are recovered exactly and corruption is refused", "statement": "Removing the checksum from a checksummed byte string returns the payload; a byte string whose last four bytes are not the checksum of the rest is refused.", "quantifier": "every byte string", "why_tests_cant": "the refusal clause is over every wrong string", "anchors": ["src/gigamonkey/p2p/checksum.cpp: append_checksum, remove_checksum", "src/gigamonkey/include/gigamonkey/p2p/checksum.hpp: base58::check"]}
{"id": "C37", "title": "Addresses round-trip and are unambiguous", "statement": "Decoding an encoded address gives the same network and digest; two address strings that decode to the same network and digest are the same string.", "quantifier": "every network and 160-bit digest; every pair of strings", "why_tests_cant": "injectivity of decoding over all strings", "anchors": ["src/gigamonkey/address.cpp: address::encode, decoded", "src/gigamonkey/include/gigamonkey/address.hpp"]}
{"id": "C38", "title": "WIF keys round-trip and malformed keys are refused", "statement": "Decoding an encoded secret key gives the same key, network and compression flag; strings of any other shape decode to nothing.", "quantifier": "every secret key, network and flag; every string", "why_tests_cant": "2^256 keys and every malformed string", "anchors": ["src/gigamonkey/wif.cpp: WIF::decode, WIF::encode", "src/gigamonkey/include/gigamonkey/wif.hpp"]}
{"id": "C39", "title": "Signature shape checks never read outside the signature", "statement": "Checking whether a byte string is a well-formed or minimal DER signature, and parsing it laxly, read only bytes inside the string, for every string.", "quantifier": "every byte string", "why_tests_cant": "memory safety over every input", "anchors": ["src/gigamonkey/secp256k1.cpp: signature::valid, signature::minimal, ecdsa_signature_parse_der_lax"]}
{"id": "C40", "title": "Key arithmetic is a homomorphism", "statement": "Adding two secret keys gives the key whose public key is the sum of the two public keys; adding public keys depends on both arguments.", "quantifier": "every pair of keys", "why_tests_cant": "all pairs", "anchors": ["src/gigamonkey/secp256k1.cpp: secret::plus, secret::times, pubkey::plus"]}
{"id": "C41", "title": "Extended keys round-trip", "statement": "An HD secret or public key read from its own base58 form is the same key (network, depth, parent, sequence, chain code and key).", "quantifier": "every extended key", "why_tests_cant": "a 77 byte payload", "anchors": ["src/gigamonkey/schema/hd.cpp: secret::read, write, pubkey::read, write"]}
{"id": "C42", "title": "Public derivation matches private derivation", "statement": "For a non-hardened index, deriving a child of the public key gives the public key of the derived child secret.", "quantifier": "every key, index and HMAC behaviour", "why_tests_cant": "fails, if at all, only for HMAC values in a region of probability 2^-127", "anchors": ["src/gigamonkey/schema/hd.cpp: derive(secret), derive(pubkey)"]}
{"id": "C43", "title": "Derivation paths parse to the written indices", "statement": "Parsing the standard text of a derivation path returns exactly its indices with hardened ones marked; malformed text is refused; parsing always terminates.", "quantifier": "every list of indices; every string", "why_tests_cant": "non-termination and malformed strings over all strings", "anchors": ["src/gigamonkey/schema/hd.cpp: read_path"]}
{"id": "C44", "title": "Generated seed phrases are valid, and only well-formed phrases are", "statement": "Every seed phrase generated from 16, 20, 24, 28 or 32 bytes of entropy is accepted by the validity check, and a phrase with any other number of words is refused.", "quantifier": "every entropy and hash, every phrase", "why_tests_cant": "2^256 entropies; the refusal is over every phrase length", "anchors": ["src/gigamonkey/schema/bip_39.cpp: generate, valid"]}
{"id": "C45", "title": "Compact targets expand correctly and compacting loses only low digits", "statement": "Expanding a compact target gives mantissa times 256^(exponent-3) or zero if negative or too large; compacting a target and expanding gives the largest compact-representable number not above it.", "quantifier": "every 32-bit compact value and every 256-bit target", "why_tests_cant": "2^256 targets; sign-bit and small-number cases", "anchors": ["src/gigamonkey/work.cpp: compact::compact(uint256), expand", "src/gigamonkey/include/gigamonkey/work/target.hpp"]}
{"id": "C46", "title": "Version-rolling bits round-trip", "statement": "Splitting a block version into the fixed part and the miner-controlled bits and recombining gives the version back; the controlled bits never affect the fixed part.", "quantifier": "every 32-bit version, magic number and bits value", "why_tests_cant": "2^32 values (and all pairs)", "anchors": ["src/gigamonkey/include/gigamonkey/work/ASICBoost.hpp: bits, magic_number, category"]}
{"id": "C47", "title": "Solutions found by the solver satisfy the puzzle", "statement": "Whenever the CPU solver returns a proof, the proof is valid: the hash of the work string is below the target; and it only changes nonces of the starting solution.", "quantifier": "every puzzle, start and number of iterations", "why_tests_cant": "a loop invariant over an unbounded search", "anchors": ["src/gigamonkey/work.cpp: cpu_solve", "src/gigamonkey/include/gigamonkey/work/solver.hpp", "src/gigamonkey/include/gigamonkey/work/proof.hpp"]}
{"id": "C48", "title": "The work string of a proof depends only on permitted bits of the miner's choice", "statement": "The version field of the work string of a proof agrees with the puzzle's version on every masked bit, and with the miner's bits on every other bit.", "quantifier": "every puzzle mask, version and miner bits", "why_tests_cant": "2^96 combinations", "anchors": ["src/gigamonkey/include/gigamonkey/work/proof.hpp: proof::string"]}
{"id": "C49", "title": "Boost scripts round-trip", "statement": "Reading the script written for a Boost output or a Boost input returns the same output or input, for contract and bounty forms, with or without version rolling.", "quantifier": "every well-formed Boost output and input", "why_tests_cant": "unbounded tag and additional data", "anchors": ["src/gigamonkey/boost/boost.cpp: output_script::read, write, input_script::read, write"]}
{"id": "C50", "title": "A Boost solution's input script matches its puzzle's version-rolling mode", "statement": "The input script produced for a proof carries general-purpose bits exactly when the puzzle uses version rolling.", "quantifier": "every Boost proof", "why_tests_cant": "the mode flag and mask are arbitrary", "anchors": ["src/gigamonkey/include/gigamonkey/boost/boost.hpp: proof::input_script"]}
{"id": "C51", "title": "The expected size of a designed transaction bounds the final size", "statement": "The size expected for a transaction design equals the size of the completed transaction when every unlocking script has its estimated size.", "quantifier": "every design with any number of inputs and outputs", "why_tests_cant": "var-int widths of the two counts change at 253 and 65536", "anchors": ["src/gigamonkey/include/gigamonkey/fees.hpp: transaction_design::expected_size, complete"]}
{"id": "C52", "title": "Fees are conserved", "statement": "For every transaction design or extended transaction, fee equals value spent minus value sent, and the completed transaction spends and sends the same.", "quantifier": "every design", "why_tests_cant": "unbounded lists of amounts", "anchors": ["src/gigamonkey/include/gigamonkey/fees.hpp: transaction_design::fee, spent, sent", "src/gigamonkey/include/gigamonkey/pay/extended.hpp: fee, spent, sent"]}
{"id": "C53", "title": "The SPV database finds what was inserted", "statement": "After any sequence of operations, a header is found by height, by hash and by Merkle root if and only if it is on the current chain, and the three lookups agree.", "quantifier": "every sequence of insertions and removals", "why_tests_cant": "histories with reorganisations", "anchors": ["src/gigamonkey/SPV.cpp: database::memory", "src/gigamonkey/include/gigamonkey/SPV.hpp"]}
{"id": "C54", "title": "A transaction reported as confirmed is in a header currently on the chain", "statement": "After any sequence of operations, whenever the database reports a transaction as confirmed, the confirming header is currently in the database and the path derives its Merkle root from the transaction id.", "quantifier": "every sequence of insertions, removals and reorganisations", "why_tests_cant": "histories", "anchors": ["src/gigamonkey/SPV.cpp: database::memory::insert, remove, remove_latest, transaction"]}
{"id": "C55", "title": "A validated SPV payment is backed by real transactions", "statement": "If SPV validation accepts a payment, then every input spends an output of a transaction whose id is the one the input refers to, every unlocking script was accepted, no transaction creates value, and every root transaction is proved in a header known to the database.", "quantifier": "every proof and database", "why_tests_cant": "every dag of antecedents", "anchors": ["src/gigamonkey/SPV.cpp: proof::validate, check_sub_proof"]}
{"id": "C56", "title": "BEEF round-trips through binary", "statement": "A BEEF is read back from its serialisation unchanged and its announced size is exact.", "quantifier": "every BEEF", "why_tests_cant": "unbounded lists", "anchors": ["src/gigamonkey/pay/BEEF.cpp: read, write, serialized_size"]}
{"id": "C57", "title": "A validated BEEF has every Merkle root confirmed", "statement": "If BEEF validation against a header database succeeds, every Merkle proof in it has a consistent root and that root is known to the database, and every transaction either has a Merkle proof in range or only spends earlier transactions.", "quantifier": "every BEEF and database", "why_tests_cant": "every structure of proofs and transactions", "anchors": ["src/gigamonkey/pay/BEEF.cpp: BEEF::valid, validate, roots"]}
{"id": "C58", "title": "An SPV envelope is validated against the header source", "statement": "Validation of an SPV envelope accepts a Merkle proof only if the header source given by the caller confirms it.", "quantifier": "every envelope and header source", "why_tests_cant": "the header source's answers are arbitrary", "anchors": ["src/gigamonkey/pay/SPV_envelope.cpp: validate, validate_node"]}
{"id": "C59", "title": "Stratum work notifications round-trip", "statement": "A work notification read from its own JSON form has the same job id, previous digest, coinbase parts, Merkle path, version, target, time and clean flag.", "quantifier": "every notification", "why_tests_cant": "byte order of every field for every value", "anchors": ["src/gigamonkey/stratum/mining.cpp: notify::serialize, deserialize"]}
{"id": "C60", "title": "Stratum shares round-trip", "statement": "A share read from its own JSON form is the same share, with or without version bits, and malformed fields are refused without undefined behaviour.", "quantifier": "every share; every parameter list", "why_tests_cant": "all values of every field; malformed inputs", "anchors": ["src/gigamonkey/stratum/mining.cpp: submit_request::serialize, deserialize"]}
{"id": "C61", "title": "Negotiated version mask is within both parties' masks", "statement": "The version mask in effect is always a subset of the server's and the client's masks and has at least the requested number of bits, otherwise none is in effect; a well-formed mask text is accepted.", "quantifier": "every pair of masks, bit count and mask text", "why_tests_cant": "2^72 combinations", "anchors": ["src/gigamonkey/stratum/extensions.cpp: parameters<version_rolling>::make, read_version_mask"]}
{"id": "C62", "title": "Only authorised clients become authorised", "statement": "The server session reports a client as authorised if and only if the authorisation callback accepted it; a second authorisation is refused.", "quantifier": "every sequence of requests and callback behaviours", "why_tests_cant": "every callback result and history", "anchors": ["src/gigamonkey/stratum/server_session.cpp: server_session::authorize"]}
{"id": "C63", "title": "Difficulty and extra nonce changes follow the session rules", "statement": "A difficulty is never set below the client's minimum nor before subscription, and the setter reports a change exactly when the pending value changes.", "quantifier": "every history of session operations", "why_tests_cant": "histories", "anchors": ["src/gigamonkey/stratum/server_session.cpp: state::set_difficulty, set_extranonce, set_version_mask"]}
{"id": "C64", "title": "Method names and messages round-trip", "statement": "Every known method name maps to its method and back, unknown names map to no method, and the id, method and parameters of a request, notification or response built by the library are read back unchanged.", "quantifier": "every method, id and parameter list; every string", "why_tests_cant": "every string", "anchors": ["src/gigamonkey/stratum/method.cpp", "src/gigamonkey/stratum/stratum.cpp", "src/gigamonkey/include/gigamonkey/stratum/stratum.hpp"]}
{"id": "C65", "title": "BIP-276 typed data round-trips and malformed text is refused", "statement": "Reading the text form of a script on any network returns the same network and bytes, and text that is not of that form is refused without undefined behaviour.", "quantifier": "every byte string and network; every text", "why_tests_cant": "every text", "anchors": ["src/gigamonkey/script/typed_data_bip_276.cpp: typed_data::write, read"]}
{"id": "C66", "title": "Random key generation is supplied with entropy", "statement": "Every byte delivered by the entropy source comes from the system's random generator, and reading never touches memory outside its buffer.", "quantifier": "every sequence of read sizes", "why_tests_cant": "sequences of reads of every size", "anchors": ["src/gigamonkey/schema/random.cpp: bitcoind_entropy::read", "src/gigamonkey/include/gigamonkey/schema/random.hpp"]}
{"id": "C67", "title": "JSON envelopes are read back as written", "statement": "An envelope's JSON form is read back with the same payload, encoding, key and signature, for text and binary payloads.", "quantifier": "every envelope", "why_tests_cant": "every payload", "anchors": ["src/gigamonkey/pay/envelope.cpp: JSON_envelope"]}
{"id": "C68", "title": "Standard script patterns recognise exactly their scripts", "statement": "The script made for an address, public key or script hash is recognised and returns the same key or digest, and any script recognised as such is byte for byte the script made from the returned value.", "quantifier": "every digest and key; every script", "why_tests_cant": "the second half is over every script", "anchors": ["src/gigamonkey/script/pattern.cpp", "src/gigamonkey/include/gigamonkey/script/pattern/pay_to_address.hpp", "src/gigamonkey/include/gigamonkey/script/pattern/pay_to_pubkey.hpp", "src/gigamonkey/include/gigamonkey/script/pattern/pay_to_script_hash.hpp"]}
{"id": "C69", "title": "Pattern matching terminates and reports data from inside the script", "statement": "Matching any script against any pattern terminates, consumes a prefix of the script, and every captured piece is data pushed by that script.", "quantifier": "every pattern and script", "why_tests_cant": "patterns nest without bound; zero-width repetition", "anchors": ["src/gigamonkey/script/pattern.cpp: scan", "src/gigamonkey/include/gigamonkey/script/pattern.hpp"]}
{"id": "C70", "title": "Calendar fields of timestamps are correct", "statement": "Converting a calendar date and time to a timestamp and back gives the same year, month, day, hour, minute and second.", "quantifier": "every timestamp", "why_tests_cant": "2^32 timestamps and leap-year rules", "anchors": ["src/gigamonkey/timestamp.cpp", "src/gigamonkey/include/gigamonkey/timestamp.hpp"]}
{"id": "C71", "title": "Completing an incomplete transaction fills in exactly the unlocking scripts", "statement": "Completing an incomplete transaction with one script per input gives a transaction with the same version, outpoints, sequences, outputs and lock time and exactly those scripts, and any other number of scripts is refused.", "quantifier": "every incomplete transaction and list of scripts", "why_tests_cant": "unbounded lists", "anchors": ["src/gigamonkey/incomplete.cpp: transaction::complete", "src/gigamonkey/include/gigamonkey/incomplete.hpp"]}
{"id": "C72", "title": "Incrementing key sources never repeat", "statement": "An incrementing key source started at any key delivers the sequence k, k+1, k+2, ... of keys.", "quantifier": "every starting key and number of draws", "why_tests_cant": "unbounded sequences", "anchors": ["src/gigamonkey/include/gigamonkey/schema/keysource.hpp: increment_key_source", "src/gigamonkey/secp256k1.cpp: secret::plus"]}
{"id": "C73", "title": "Slicing one input or output out of a serialised transaction", "statement": "Asking for input or output number i of a serialised transaction, without deserialising it, returns exactly the bytes that input or output serialises to, and nothing if there is no such input or output.", "quantifier": "every transaction with fewer than 2^31 inputs, outputs and bytes per script and a version the slicing functions accept; every index; every following byte string", "why_tests_cant": "scripts of any length have to be skipped correctly", "anchors": ["src/gigamonkey/timechain.cpp: transaction::input, transaction::output, scan_input, to_transaction_inputs, to_transaction_outputs"]}
{"id": "C74", "title": "Stepping and running agree", "statement": "Calling step on an interpreter until it has halted leaves it with exactly the result that run reports for the same interpreter, and no further step changes that result.", "quantifier": "every script pair and configuration, every number of steps", "why_tests_cant": "executions of every length and every way to halt, including each kind of exception", "anchors": ["src/gigamonkey/script/interpreter.cpp: interpreter::step, interpreter::run, machine_step, machine_run, catch_all_errors"]}
{"id": "C75", "title": "LEFT, RIGHT and SUBSTR cut out the part they name", "statement": "LEFT and RIGHT leave the first and last n bytes of the string below their operand, SUBSTR the n bytes from a position, each keeping the rest of the stack, and each reports an error, changing nothing, when the operands are negative or reach beyond the string.", "quantifier": "every string shorter than 2^32 bytes, every operand accepted as a number, every stack", "why_tests_cant": "operands of every value and length around every boundary", "anchors": ["src/gigamonkey/script/machine.cpp: OP_LEFT, OP_RIGHT, OP_SUBSTR"]}
{"id": "C76", "title": "The signature check demands exactly what the flags demand", "statement": "Checking a signature over a document succeeds exactly when every check demanded by the flags passes (compressed key, valid key, known directive, fork id present or absent as demanded, strict encoding, low S) and the key verifies the rest of the signature over the digest for that directive; with a failing signature and the null-fail flag the result is an error, and an empty signature is never an error.", "quantifier": "every combination of flags, key, signature and document", "why_tests_cant": "the flags combine in many ways, each with unboundedly many signatures", "anchors": ["src/gigamonkey/script.cpp: verify_signature"]}
{"id": "C77", "title": "The strict signature check accepts exactly BIP-66 signatures", "statement": "A byte string passes the minimal signature check exactly when it is the DER form of two positive numbers without superfluous leading zeros, and the lax parser then reads exactly those two numbers.", "quantifier": "every byte string", "why_tests_cant": "byte strings are unbounded in number and the offsets depend on their contents", "anchors": ["src/gigamonkey/secp256k1.cpp: signature::valid, signature::minimal, ecdsa_signature_parse_der_lax"]}
{"id": "C78", "title": "Standard payments are redeemed exactly by their key", "statement": "An output paying to an address or to a public key, spent with the script the library makes from a signature and the key, evaluates to success exactly when the signature passes the checks demanded by the flags and the key verifies it over the digest of the spending transaction, the spent value and the output script; with a key of another hash evaluation fails whatever the signature.", "quantifier": "every key and signature of 2 to 75 bytes that the output does not itself push, document, configuration that allows five operations, and number of rounds", "why_tests_cant": "signatures, keys and transactions cannot be enumerated, and the result depends on every step of the machine", "anchors": ["src/gigamonkey/include/gigamonkey/script/pattern/pay_to_address.hpp: pay_to_address", "src/gigamonkey/include/gigamonkey/script/pattern/pay_to_pubkey.hpp: pay_to_pubkey", "src/gigamonkey/script/interpreter.cpp: evaluate", "src/gigamonkey/script.cpp: verify_signature"]}
{"id": "C79", "title": "The locking script decides", "statement": "An unlocking script has no influence on the evaluation other than through the values it leaves on the stack: evaluation is that of the locking script started on those values, and no unlocking script makes evaluation succeed without the locking script having been run.", "quantifier": "every unlocking and locking script and configuration", "why_tests_cant": "scripts cannot be enumerated", "anchors": ["src/gigamonkey/script/interpreter.cpp: setup_interpreter", "src/gigamonkey/script/instruction.cpp: full", "src/gigamonkey/script/machine.cpp: OP_RETURN"]}
{"id": "C80", "title": "Every branch extracted from a BUMP leads to its root", "statement": "If a BUMP validates against a root, then every branch extracted from it leads from its transaction to that root, and a branch is extracted for every transaction marked in it.", "quantifier": "every BUMP, every pair hash", "why_tests_cant": "trees of any shape, with any nodes given at any level, including ones an attacker chooses", "anchors": ["src/gigamonkey/merkle/BUMP.cpp: BUMP::root, BUMP::validate, BUMP::paths, combine, step, path_next_layer, read_down", "src/gigamonkey/include/gigamonkey/merkle/BUMP.hpp"]}
{"id": "C81", "title": "Arithmetic opcodes compute with exact integers", "statement": "Every arithmetic, comparison and logical opcode takes its operands off the stack and puts on the exact integer result, truncating division toward zero, in its shortest encoding or as the operand that it is; operands that are too long or, when this is demanded, not as short as possible are refused, and so is division by zero.", "quantifier": "every machine state within its limits, every operand of any length", "why_tests_cant": "operands are unbounded byte strings with redundant encodings and a signed zero", "anchors": ["src/gigamonkey/script/machine.cpp: machine::step (OP_1ADD to OP_WITHIN)", "src/gigamonkey/include/gigamonkey/numbers.hpp: read_integer, is_minimal_number, nonzero, is_zero, is_negative"]}
{"id": "C82", "title": "Byte string opcodes do what their names say", "statement": "SIZE, EQUAL, AND, OR, XOR, INVERT, the hash opcodes and the opcodes for small numbers put exactly the size, truth value, bitwise combination, hash or number they name on the stack and change nothing else; strings of different lengths are refused by the bitwise opcodes.", "quantifier": "every machine state within its limits, every element of any length, every hash function", "why_tests_cant": "elements are unbounded byte strings", "anchors": ["src/gigamonkey/script/machine.cpp: machine::step (OP_SIZE, OP_EQUAL, OP_AND, OP_OR, OP_XOR, OP_INVERT, OP_RIPEMD160 to OP_HASH256)"]}
{"id": "C83", "title": "NUM2BIN and BIN2NUM keep the value of a number", "statement": "NUM2BIN gives a byte string of exactly the size asked for with the same value as the number, and refuses sizes that are negative, too large or smaller than the number; BIN2NUM gives the shortest byte string with the same value.", "quantifier": "every machine state within its limits, every number and size", "why_tests_cant": "numbers are unbounded byte strings with redundant encodings", "anchors": ["src/gigamonkey/script/machine.cpp: machine::step (OP_NUM2BIN, OP_BIN2NUM)", "src/gigamonkey/include/gigamonkey/numbers.hpp: extend_number, trim_number"]}
{"id": "C84", "title": "A mistyped base 58 check string is recovered", "statement": "Recovering a text returns the content of a valid text that differs from it by at most one character replaced, inserted or deleted; it always finds one if there is one; and a valid text is returned as it is.", "quantifier": "every text, every hash function", "why_tests_cant": "texts are of any length and a single mistake can be anywhere", "anchors": ["src/gigamonkey/p2p/checksum.cpp: check::recover, check::decode, check::encode", "src/gigamonkey/include/gigamonkey/p2p/checksum.hpp"]}
{"id": "C85", "title": "A signature check sees the code after the last separator", "statement": "The script code a signature check signs is what follows the last code separator passed, or the whole script if none was, without the pushes of the signature itself when the signature has no fork id.", "quantifier": "every script, every point reached in it, every signature", "why_tests_cant": "where separators are and which pieces equal the signature depends on the script and on what was run", "anchors": ["src/gigamonkey/script/machine.cpp: cleanup_script_code", "src/gigamonkey/script/instruction.cpp: find_and_delete", "src/gigamonkey/include/gigamonkey/script/counter.hpp: to_last_code_separator"]}
{"id": "C86", "title": "A proof of work is rebuilt from its work string and parts", "statement": "A proof made from the work string, path, coinbase parts and nonces of a proof is that proof again, and it has the same work string.", "quantifier": "every proof, every hash function", "why_tests_cant": "paths have any length and strings any size", "anchors": ["src/gigamonkey/include/gigamonkey/work/proof.hpp: proof::proof"]}
{"id": "C87", "title": "The hash reported for a transaction or header is that of its contents", "statement": "Whenever a transaction or header is asked for its id, after any history of changes to its fields, the id is the hash of its serialisation at that time.", "quantifier": "every history of field changes, assignments and requests", "why_tests_cant": "histories are unbounded", "anchors": ["src/gigamonkey/include/gigamonkey/timechain.hpp: transaction::id, header::hash"]}
{"id": "C88", "title": "A valid transaction is well formed", "statement": "A transaction is reported valid exactly if it has inputs and outputs, every amount is between zero and 21 million coins, its scripts are programs, or it is a coinbase transaction; asking never throws.", "quantifier": "every transaction", "why_tests_cant": "scripts and lists are unbounded", "anchors": ["src/gigamonkey/include/gigamonkey/timechain.hpp: transaction::valid", "src/gigamonkey/timechain.cpp: input::valid, output::valid"]}
{"id": "C89", "title": "A valid block has work on exactly its transactions", "statement": "If a block is reported valid then its header's hash is below its target, its transactions are valid, and its Merkle root is that of its transactions.", "quantifier": "every block, every hash function", "why_tests_cant": "blocks have any number of transactions", "anchors": ["src/gigamonkey/include/gigamonkey/timechain.hpp: block::valid, merkle_root", "src/gigamonkey/timechain.cpp: header::valid"]}
{"id": "C90", "title": "CHECKMULTISIG accepts exactly signatures that match keys in order", "statement": "With some keys and some signatures on the stack, CHECKMULTISIG says yes exactly if every signature is accepted with one of some keys taken in the same order; each check is made against the script code without the pushes of the signatures; an erroneous signature or key, failing signatures that are not empty, or an extra element that is not empty stop the script when the flags demand it.", "quantifier": "every machine state within its limits, any number of keys and signatures, every document", "why_tests_cant": "the matching is a search over all choices of keys", "anchors": ["src/gigamonkey/script/machine.cpp: machine::step (OP_CHECKMULTISIG)"]}
{"id": "C91", "title": "A sequence matches its parts one after another", "statement": "A pattern written as several parts matches a script exactly when the first part matches a beginning of it and the remaining parts, in order, match what is left.", "quantifier": "every list of parts and every script", "why_tests_cant": "parts nest without bound and repeat", "anchors": ["src/gigamonkey/include/gigamonkey/script/pattern.hpp: pattern::sequence, construct", "src/gigamonkey/script/pattern.cpp: pattern::sequence::scan"]}
{"id": "C92", "title": "A repetition keeps to its bounds", "statement": "A repeated pattern takes its body as often as it matches in a row but not more often than the upper bound it was given, and fails if that is less often than the lower bound.", "quantifier": "every body, every pair of bounds, every script", "why_tests_cant": "bounds and number of matches are arbitrary", "anchors": ["src/gigamonkey/script/pattern.cpp: repeated::scan", "src/gigamonkey/include/gigamonkey/script/pattern.hpp: repeated"]}
{"id": "C93", "title": "Boost scripts have the sizes that are announced", "statement": "The announced size of a Boost output or input script is the number of bytes written for it, and the size expected of an input script in advance is at least the number of bytes of the script that is made.", "quantifier": "every Boost output and input, every signature and extra nonce the format allows", "why_tests_cant": "the sizes of tag, data and signature range over all sizes and the off-by-one cases are few", "anchors": ["src/gigamonkey/include/gigamonkey/boost/boost.hpp: output_script::serialized_size, input_script::serialized_size, input_script::expected_size", "src/gigamonkey/include/gigamonkey/script/instruction.hpp: instruction::min_push_size"]}
{"id": "C94", "title": "A Boost output is redeemed exactly by proof of work", "statement": "Evaluating a Boost output script with an input script that pushes values of the right number succeeds exactly if the values are those of an input whose proof of work, put together with the output, is valid off the chain, whose key has the required hash, and whose signature is accepted.", "quantifier": "every Boost output (bounty or contract, with or without version rolling), every list of pushed byte strings, every digest function and signature check", "why_tests_cant": "the values pushed, the digests and the targets are arbitrary, and the agreement is between a script of a hundred instructions and a separate implementation", "anchors": ["src/gigamonkey/boost/boost.cpp: output_script::write, proof::proof", "src/gigamonkey/include/gigamonkey/boost/boost.hpp: proof::valid", "src/gigamonkey/script/machine.cpp: machine::step", "src/gigamonkey/include/gigamonkey/work/proof.hpp: proof::valid"]}
{"id": "C95", "title": "Fee rates are compared as fractions", "statement": "Of two fee rates, given as satoshis and bytes, the one reported lower, higher or equal is the one whose quotient is lower, higher or equal, and the comparison always gives an answer.", "quantifier": "every pair of fee rates", "why_tests_cant": "Overflow of the cross products and sizes of zero occur at values that samples do not reach.", "anchors": ["src/gigamonkey/include/gigamonkey/satoshi.hpp: satoshis_per_byte, operator <=>, operator =="]}
{"id": "C96", "title": "A valid extended transaction creates no value", "statement": "If an extended transaction is reported valid, no set of its outputs sends more than its inputs spend, every output carries an acceptable amount, and every input's script can be read, unless it is a coinbase.", "quantifier": "every extended transaction", "why_tests_cant": "Amounts and scripts range over everything that can be written in a transaction; negative amounts are easily missed.", "anchors": ["src/gigamonkey/include/gigamonkey/pay/extended.hpp: extended::transaction::valid, input::valid"]}
{"id": "C97", "title": "Redeeming a design gives a transaction that spends its inputs", "statement": "For a transaction design in which every input redeems a payment to an address or to a public key and carries one signature operation with the key paid to, redeeming with the default redeemer returns a transaction with the version, outputs, lock time, references, sequence numbers and previous outputs of the design, and every input script in it evaluates to success against the script it redeems, with the returned transaction, the index of the input and the value redeemed as the document, under every set of flags that permits the directive and the form of the key. No other input is given a script.", "quantifier": "every design with any number of inputs and outputs, every secret key, every directive (without the fork id, where the output script does not contain the push of the signature), flags and limits, and every partial input script", "why_tests_cant": "A test signs a few transactions; that what is signed before completion is what is checked after it, for every index, script and directive, needs an argument about both paths.", "anchors": ["src/gigamonkey/redeem.cpp: redeem_p2pkh_and_p2pk", "src/gigamonkey/redeem.cpp: redeemable_transaction::redeem", "src/gigamonkey/include/gigamonkey/redeem.hpp: redeemable_transaction", "src/gigamonkey/script.cpp: remove_after_last_code_separator", "src/gigamonkey/include/gigamonkey/fees.hpp: transaction_design::complete", "src/gigamonkey/include/gigamonkey/wif.hpp: secret::to_public"]}
{"id": "C98", "title": "The check of a set of Merkle paths accepts exactly the sets that lead to the root", "statement": "The validity check of a collection of Merkle paths with a common root ends and accepts if and only if the root is not zero, there is a path, and following each path from its leaf leads to that root, all ending at the same place; otherwise it ends and refuses.", "quantifier": "every collection of paths, of any lengths, indices and digests", "why_tests_cant": "paths of different lengths and indices are merged row by row; every combination is another way through the loop", "anchors": ["src/gigamonkey/include/gigamonkey/merkle/dual.hpp: dual::valid", "src/gigamonkey/merkle/dual.cpp: dual::valid"]}
{"id": "C99", "title": "Adding two sets of Merkle paths of one block keeps every leaf", "statement": "For two valid collections of Merkle paths with the same root, their sum is defined, has that root, proves exactly the leaves proved by either, each once, and gives for each a path that one of them gave.", "quantifier": "every pair of valid collections of paths with the same root", "why_tests_cant": "the paths share digests in every possible pattern, and the merge searches for the place to insert among sorted branches", "anchors": ["src/gigamonkey/include/gigamonkey/merkle/dual.hpp: dual::operator +", "src/gigamonkey/merkle/dual.cpp: dual::operator +"]}
{"id": "C100", "title": "Transactions without a Merkle proof are kept and listed", "statement": "After any sequence of operations on the SPV database, every stored transaction that has no Merkle proof is listed as unconfirmed and only stored ones are; a stored transaction is never lost except by removing it; only listed ones can be removed.", "quantifier": "every history of inserting and removing headers, transactions and Merkle proofs, including replacement of part of the chain", "why_tests_cant": "whether a transaction is listed depends on the order in which it, its proof and its header came and went", "anchors": ["src/gigamonkey/SPV.cpp: database::memory::insert, remove, remove_latest", "src/gigamonkey/include/gigamonkey/SPV.hpp: database::memory::unconfirmed, writable"]}
{"id": "C101", "title": "Proofs made from a database are accepted", "statement": "When the database is asked for a proof of a payment, what it gives contains every transaction of the payment and, for everything they spend, the transaction the database holds, down to transactions with confirmations. If the transactions the database holds without confirmation and those of the payment have accepted scripts, spend outputs that are there and send no more than they spend, if what the database reports as confirmed is so, and if the payment does not hold a transaction twice, then the proof is accepted. Making the proof ends as long as transactions do not spend one another in a circle, and what is accepted is backed by confirmed transactions.", "quantifier": "every database, every history of the database in memory, every payment, and every depth of unconfirmed transactions", "why_tests_cant": "A test makes proofs of one or two levels. That every proof made is accepted needs an induction over chains of unconfirmed transactions of any length and width.", "anchors": ["src/gigamonkey/SPV.cpp: generate_proof, generate_proof_node", "src/gigamonkey/include/gigamonkey/SPV.hpp: SPV::generate_proof, SPV::proof"]}
{"id": "C102", "title": "Extended transactions carry the outputs spent", "statement": "Extending a transaction with the database, or converting an accepted proof to extended transactions, gives the same transactions, in the same order, with the same ids, and gives each input the output it refers to. It fails if an output is not there. Extended transactions from an accepted proof do not send more than they spend.", "quantifier": "every database, every transaction and every proof", "why_tests_cant": "A test with a transaction of one input cannot see what happens to the order of inputs; and it must hold for whatever proof is accepted.", "anchors": ["src/gigamonkey/SPV.cpp: SPV::extend", "src/gigamonkey/include/gigamonkey/SPV.hpp: SPV::extended_transaction, SPV::extended_transactions"]}
{"id": "C103", "title": "The payment read from a BEEF is the one it holds, and it is only accepted if it is backed", "statement": "Reading a payment out of a BEEF gives the transactions without Merkle proofs that no other of them spends, in the order of the BEEF, together with nodes for everything they spend that are made of nothing but the transactions and BUMPs of the BEEF and the headers the database has at the heights of the BUMPs. If the payment is then validated, each of its transactions redeems outputs of transactions that are backed by confirmed ones. If the BEEF is in order, its BUMPs prove what refers to them and the transactions without proofs are acceptable, the payment is read and validated. A BEEF that cannot be used is reported as such.", "quantifier": "every BEEF, every database of headers, every rule for scripts", "why_tests_cant": "The BEEF is a graph of any size and depth; tests show a few payments that go through and none of the malformed ones.", "anchors": ["src/gigamonkey/pay/BEEF.cpp: SPV_proof_reader, read_SPV_proof_leaf, read_SPV_proof_node", "src/gigamonkey/include/gigamonkey/pay/BEEF.hpp: BEEF::read_SPV_proof", "src/gigamonkey/SPV.cpp: proof_validate"]}
{"id": "C104", "title": "TSC proofs are validated exactly by the headers of the database", "statement": "A Merkle proof in the standard format is validated against a header database if and only if it is valid by itself, its path leads from the id of its transaction to a Merkle root for which the database has a header, and the target it names (root, block hash or header) is that of this header. With the database in memory the header is part of the chain.", "quantifier": "all proofs, all header databases, all histories of the database in memory", "why_tests_cant": "The answer depends on the path, the form of the target and the contents of the database at once; no list of cases covers them.", "anchors": ["src/gigamonkey/merkle/serialize.cpp: proofs_serialization_standard::validate", "src/gigamonkey/include/gigamonkey/merkle/serialize.hpp: proofs_serialization_standard"]}
{"id": "C105", "title": "An SPV proof is the same after going through an SPV envelope", "statement": "Making an SPV envelope from a proof of a payment and reading a proof from it gives the same payment and the same antecedents; and a payment that is read from a valid envelope and then accepted rests on confirmed transactions.", "quantifier": "all payments, all trees of antecedents, all databases, all envelopes", "why_tests_cant": "Proofs are trees of any depth and width; that nothing is lost or confused at any level needs induction over the tree.", "anchors": ["src/gigamonkey/pay/SPV_envelope.cpp: SPV_envelope::SPV_envelope, read_SPV_proof, to_SPV_envelope", "src/gigamonkey/include/gigamonkey/pay/SPV_envelope.hpp: SPV_envelope"]}
{"id": "C106", "title": "An SPV envelope is the same after going through JSON", "statement": "An SPV envelope that is written as JSON is read back with the same transaction, id, responses and antecedents; JSON that is not an envelope is read as something that is not valid.", "quantifier": "all envelopes, with antecedents nested to any depth, and all JSON values", "why_tests_cant": "Envelopes nest to any depth and proofs inside have three forms of target and two ways to name their transaction.", "anchors": ["src/gigamonkey/pay/SPV_envelope.cpp: SPV_envelope::operator JSON, SPV_envelope::SPV_envelope (const JSON &), read_JSON, write_JSON"]}
{"id": "C107", "title": "Redeeming a Boost puzzle spends every output exactly if the solution is a proof of work", "statement": "Redeeming a puzzle (Boost outputs with one script and a miner key) with a solution and a list of outputs gives a transaction with those outputs, whose inputs are the previous outputs of the puzzle in order; every input script, evaluated against the Boost output script with the completed transaction, succeeds exactly if the solution is a valid proof for the work puzzle that the Boost puzzle is converted to.", "quantifier": "every Boost output and previous outputs, every key, solution, list of outputs, and evaluation environment with the same hash functions", "why_tests_cant": "the result joins hashing, proof of work, signing and script evaluation for any number of inputs; tests redeem a few easy puzzles", "anchors": ["src/gigamonkey/boost/boost.cpp: puzzle::redeem, work_puzzle, from_solution", "src/gigamonkey/include/gigamonkey/boost/boost.hpp: puzzle::operator work::puzzle"]}
{"id": "C108", "title": "A Boost candidate holds exactly the outputs given, once each, and all have its script", "statement": "Making a candidate from outputs, or adding one, holds each reference once, in order, keeps what was there, and the value is the sum of the values; every output held has the script of the candidate. Two candidates are equal exactly if they have the same script and hold the same outputs.", "quantifier": "every list of outputs and every candidate", "why_tests_cant": "a set ordered by reference loses or repeats outputs only on particular orders of insertion, and mixed scripts look like any other input", "anchors": ["src/gigamonkey/include/gigamonkey/boost/boost.hpp: candidate::candidate, candidate::add, candidate::value, operator == (candidate, candidate)"]}
{"id": "C109", "title": "Responses find the requests they answer", "statement": "Every response that arrives is handed over once, with the method of the request whose id it carries; a response to no request is an error; requests in flight have different ids; whatever arrives is handed over as a request, notification or response according to its shape.", "quantifier": "every interleaving of requests being sent and messages arriving", "why_tests_cant": "interleavings and histories", "anchors": ["src/gigamonkey/stratum/remote.cpp: operator(), send_request", "src/gigamonkey/include/gigamonkey/stratum/remote.hpp"]}
{"id": "C110", "title": "Logins, subscriptions and notifications' parameters round-trip", "statement": "A login, a request for subscription, its answer, and the parameters of a difficulty, extra nonce, version mask or message notification are read from their own JSON form as they were.", "quantifier": "every login, subscription list, extra nonce, difficulty, mask and message", "why_tests_cant": "every value of every field", "anchors": ["src/gigamonkey/stratum/mining_subscribe.cpp", "src/gigamonkey/stratum/mining_authorize.cpp", "src/gigamonkey/include/gigamonkey/stratum/session_id.hpp", "src/gigamonkey/include/gigamonkey/stratum/mining_set_difficulty.hpp", "src/gigamonkey/include/gigamonkey/stratum/mining_set_extranonce.hpp", "src/gigamonkey/include/gigamonkey/stratum/mining_set_version_mask.hpp", "src/gigamonkey/include/gigamonkey/stratum/client_show_message.hpp"]}
{"id": "C111", "title": "Configure requests and answers are read as written", "statement": "The extensions that a miner asks for, with their parameters, and the answers of the pool, with theirs, are read by the other side as they were written. An answer is said to be complete if and only if it has an answer to everything that was asked, and an extension that is accepted with parameters is a good answer.", "quantifier": "every set of requests and results, every order of their entries, every JSON list", "why_tests_cant": "Names and parameters are free text joined by dots; a test with one name and one parameter does not show which ones are confused.", "anchors": ["src/gigamonkey/stratum/mining_configure.cpp: configure_request, configure_response", "src/gigamonkey/include/gigamonkey/stratum/extensions.hpp: requests, results, result", "src/gigamonkey/stratum/extensions.cpp"]}
{"id": "C112", "title": "A client session stands where the server has put it", "statement": "After any sequence of messages a client takes itself to be authorised if and only if the pool said yes to a request to be, counts as accepted exactly the shares that the pool accepted, which are no more than were submitted, keeps the answer to its configure request, and answers a request for its version once.", "quantifier": "every sequence of sends and received messages, every interleaving at the points where a send waits", "why_tests_cant": "The state is a function of the whole history of messages, including malformed ones and answers out of order.", "anchors": ["src/gigamonkey/stratum/client_session.cpp: receive_response, receive_configure, receive_request, receive_authorize", "src/gigamonkey/include/gigamonkey/stratum/client_session.hpp: send_submit, receive_submit"]}
{"id": "C113", "title": "A wallet's addresses follow from its account's public key", "statement": "The keys of a BIP 44 wallet are at the standard place in the tree of keys; the receiving and change addresses found with the account's public key alone are those of the secret keys found with its secret key, and a source of addresses delivers the addresses of the keys that the source of keys delivers, each once. A seed that has no valid master key is reported.", "quantifier": "every master key, coin, account and index, every behaviour of the authentication code", "why_tests_cant": "The derivations differ only for rare values of the authentication code and for indices beyond 2^31 that no test reaches.", "anchors": ["src/gigamonkey/include/gigamonkey/schema/bip_44.hpp: derivation_path, account_pubkey, account_secret, from_root, master", "src/gigamonkey/include/gigamonkey/schema/hd.hpp: key_source, address_source", "src/gigamonkey/schema/hd.cpp: secret::from_seed"]}
{"id": "C114", "title": "A Stratum share stands for one block header, and is accepted exactly if that header is below the target", "statement": "Given a worker, a notification and a share, the header that the library judges has the share's time and nonce, the notification's previous digest and target, the Merkle root of the coinbase transaction with both extra nonces in it, and a version in which only the bits that the agreed mask leaves to the miner come from the share. A share is accepted exactly if it is for the job notified, comes from the worker, has an extra nonce of the length agreed on, and the hash of that header is below the target; what the library's own miner finds for a job is accepted; and a notification made from a puzzle gives that puzzle.", "quantifier": "all workers, notifications, shares, masks, targets, hash functions, puzzles and starting points of the miner", "why_tests_cant": "The header depends on every bit of the version, the mask and the share together; tests have one mask, and that one is the complement of what the parties to a session agree on.", "anchors": ["src/gigamonkey/include/gigamonkey/stratum/job.hpp: job, solved", "src/gigamonkey/include/gigamonkey/stratum/mining_notify.hpp: Stratum::proof, notify::parameters", "src/gigamonkey/include/gigamonkey/stratum/mining.hpp: worker, extranonce", "src/gigamonkey/include/gigamonkey/work/proof.hpp: proof"]}
{"id": "C115", "title": "Merkle paths of one block are merged without losing the root or a transaction", "statement": "Merging the BUMPs (compact merkle paths) of transactions of one block gives a BUMP that still has the merkle root of that block, marks exactly the transactions that were marked in its parts, and from which a branch leading to the root can be extracted for each of them; this holds for any number of transactions and whatever the order in which they are added. BUMPs of different blocks are not merged without an error.", "quantifier": "all hash functions, all blocks of 2 to 2^32 leaves, all BUMPs of the block and all lists of branches, in any order", "why_tests_cant": "the outcome depends on which positions the parts share at every level of the tree and on the order in which they are added; a test with two or three branches in block order passes although other orders destroy the root", "anchors": ["src/gigamonkey/merkle/BUMP.cpp: combine, operator +, remove_unnecessary, remove_unnecessary_nodes, BUMP::BUMP (uint64, map), BUMP::root", "src/gigamonkey/include/gigamonkey/merkle/BUMP.hpp: operator + (branch)"]}
{"id": "C116", "title": "A payment written as BEEF is read back as the same payment", "statement": "Writing a payment with its proof as BEEF gives every transaction of the proof exactly once, after everything it spends, followed by the payment in order. Confirmed transactions, and only those, refer to a BUMP; two refer to the same BUMP exactly if their blocks have the same Merkle root. Each BUMP has the height and the root of its block and marks the transactions of the proof in that block. The BEEF is validated by anyone who knows the roots, and anyone who has the headers reads from it the same payment, with a proof whose check gives the same answer as the check of the original proof.", "quantifier": "all payments, all proofs (trees of any depth and sharing) in which a transaction is filed under its id, all blocks of 2 to 2^32 transactions, all header databases", "why_tests_cant": "The BEEF depends on the shape of the whole proof tree, on the order of the map of ids and on which transactions share a block; tests use one or two small proofs with one transaction per block.", "anchors": ["src/gigamonkey/pay/BEEF.cpp: SPV_proof_writer, read_node, BEEF::BEEF (SPV::proof)", "src/gigamonkey/pay/BEEF.cpp: SPV_proof_reader, BEEF::read_SPV_proof", "src/gigamonkey/include/gigamonkey/pay/BEEF.hpp: BEEF", "src/gigamonkey/merkle/BUMP.cpp: operator +"]}
{"id": "C117", "title": "The JSON of a BUMP stands for the BUMP", "statement": "A BUMP is written as JSON just if all its nodes are valid, and then reading that JSON gives the same BUMP. Whatever JSON is accepted gives a valid BUMP: at least one level, nodes each with a digest or marked as a duplicate, positions in order within each level; JSON that is not such is refused with an exception. The order in which the nodes of a level are listed does not matter if their positions differ.", "quantifier": "all BUMPs; all JSON values", "why_tests_cant": "there are unboundedly many BUMPs and JSON values; tests read a few fixed samples", "anchors": ["src/gigamonkey/include/gigamonkey/merkle/BUMP.hpp: BUMP (JSON), operator JSON", "src/gigamonkey/merkle/BUMP.cpp: node::operator JSON, node (JSON), read_paths, JSON_write_paths"]}
{"id": "C118", "title": "The JSON of a BEEF determines the BEEF", "statement": "A BEEF is written as JSON just if all nodes of its BUMPs are valid, and two BEEFs with the same JSON are the same: versions, BUMPs, transactions with all their inputs and outputs, and which BUMP each transaction refers to.", "quantifier": "all pairs of BEEFs", "why_tests_cant": "it says that no two of unboundedly many BEEFs are confused", "anchors": ["src/gigamonkey/include/gigamonkey/pay/BEEF.hpp: operator JSON", "src/gigamonkey/pay/BEEF.cpp: BEEF::operator JSON"]}
{"id": "C119", "title": "A merchant API fee quote read from JSON says exactly what the JSON says", "statement": "A fee quote other than the empty one is read from a JSON value exactly if that value gives all of its fields, each fee once, and every rate with a number of bytes other than zero (so no fee is ever computed by dividing by zero). A valid quote that is written as JSON is read back as the same quote; a policy quote is read back with its fee quote and callback addresses.", "quantifier": "All JSON values, fee quotes (any number of fees, any rates), policy quotes, miner keys.", "why_tests_cant": "The JSON comes from a server; a quote can hold any number of fees with any names and rates, including negative ones.", "anchors": ["src/gigamonkey/include/gigamonkey/pay/MAPI.hpp: get_fee_quote, get_policy_quote, satoshis_per_byte", "src/gigamonkey/pay/MAPI.cpp: read_fees, get_fee_quote, get_policy_quote, operator JSON"]}
{"id": "C120", "title": "A merchant API answer about a transaction is read as what the server said", "statement": "The status of a transaction read from JSON has the id, result, description and conflicts that the JSON gives, and every conflict in it is valid; the answers to submitting one, submitting many and asking for a transaction carry the status of that transaction; what is written as JSON is read back; reading is defined for every JSON value.", "quantifier": "All JSON values, statuses, conflicts and answers.", "why_tests_cant": "The JSON comes from a server, with any list of conflicts and any entries present or missing.", "anchors": ["src/gigamonkey/include/gigamonkey/pay/MAPI.hpp: status, transaction_status, submit_transaction, submit_transactions, conflicted_with", "src/gigamonkey/pay/MAPI.cpp: read_status, transaction_status, submit_transaction, submit_transactions"]}
{"id": "C121", "title": "A merchant API client gives only signed answers, and gives what was signed", "statement": "A call returns the server's JSON exactly if the HTTP status is one of success, the content type and the body are JSON, and the envelope in it verifies; what the client then returns is what the envelope carries, with its key and signature; an SPV envelope that contains merchant API responses is read with them.", "quantifier": "All HTTP responses, JSON values, keys, signatures, kinds of response, and SPV envelopes.", "why_tests_cant": "The response is anything a server or someone between may send; tests use a few recorded ones.", "anchors": ["src/gigamonkey/pay/MAPI.cpp: client::call", "src/gigamonkey/include/gigamonkey/pay/MAPI.hpp: response", "src/gigamonkey/pay/SPV_envelope.cpp: read_mapi_responses"]}
{"id": "C122", "title": "What is sent to a merchant API determines the transactions and options that were meant", "statement": "A transaction is submitted exactly if it is not empty, and many exactly if there are some and none is empty; the request determines each transaction, their order and every option, whether it is sent as bytes with a query or as JSON; options that the API has as booleans are sent as booleans.", "quantifier": "All transactions, lists of them, and sets of options.", "why_tests_cant": "All combinations of the six options with any text in them, and lists of any length.", "anchors": ["src/gigamonkey/pay/MAPI.cpp: to_url_params, submit_transaction_HTTP_request, submit_transactions_HTTP_request, transaction_submission::operator JSON"]}
{"id": "C123", "title": "An ARC response that is called valid has what can be asked of it", "statement": "A response is valid only if it is as documented: unauthorized with no body, or JSON that is said to be JSON. Of a valid response that is no error the health, the policy with its limits and fee, or the status of the transactions can be read, and is what the server sent; of a valid one that is an error, the error can be read.", "quantifier": "All HTTP responses (status, content type, body), all JSON values.", "why_tests_cant": "The response is whatever a server, or something between, sends.", "anchors": ["src/gigamonkey/pay/ARC.cpp: response::valid, response::error, health_response::valid, policy_response::valid, status_response::valid, submit_response::valid, submit_txs_response::valid", "src/gigamonkey/include/gigamonkey/pay/ARC.hpp: response, health, policy, status"]}
{"id": "C124", "title": "A transaction satisfies an ARC policy exactly if it is within the limits and pays the fee", "statement": "Given a policy that says what its limits are, a transaction satisfies it exactly if each of its scripts and the whole of it are within the limits, it checks no more signatures than allowed, and it pays at least the given fee for its size.", "quantifier": "All policies, all extended transactions.", "why_tests_cant": "Any combination of sizes, amounts and limits, at every boundary.", "anchors": ["src/gigamonkey/pay/ARC.cpp: policy::satisfies", "src/gigamonkey/timechain.cpp: transaction::sigops", "src/gigamonkey/include/gigamonkey/satoshi.hpp: satoshis_per_byte"]}
{"id": "C125", "title": "What is sent to ARC determines the transactions and options that were meant", "statement": "The headers of a request determine every option; the request determines the transaction, or all of the transactions and their order, in each of the three forms (bytes, JSON, lines of hex), if their parts can be counted with 31 bits; the content type is that of the body; a request for a status is for that transaction.", "quantifier": "All transactions, lists of them, options, and ids.", "why_tests_cant": "All combinations of nine options, with any text and number in them, and lists of any length in three forms.", "anchors": ["src/gigamonkey/pay/ARC.cpp: client::submit, client::submit_txs, submit::headers, status_request"]}
{"id": "C126", "title": "The JSON of a TSC proof stands for the proof", "statement": "JSON is reported valid as a TSC proof exactly if it has the entries the standard asks for in the form it asks for. A valid proof written as JSON is valid JSON and is read back as the same proof. What is read from JSON is a valid proof exactly if the JSON is valid.", "quantifier": "every TSC proof, and every JSON value", "why_tests_cant": "JSON that comes from elsewhere takes any shape; entries that are missing, of another type or of another length cannot be listed in a test.", "anchors": ["src/gigamonkey/merkle/serialize.cpp: proofs_serialization_standard::valid (const JSON &), operator JSON, read_json", "src/gigamonkey/include/gigamonkey/merkle/serialize.hpp: proofs_serialization_standard"]}
{"id": "C127", "title": "What is asked of the JSON of a TSC proof is what is found when it is read", "statement": "For JSON that is valid as a TSC proof, the functions that ask whether it includes a transaction, what type its target has, and for the block hash, header, Merkle root and paths in it give what the proof that is read from this JSON gives.", "quantifier": "every JSON value", "why_tests_cant": "There are two ways to the same answer, one from the JSON and one from the proof, and they have to agree on every value.", "anchors": ["src/gigamonkey/include/gigamonkey/merkle/serialize.hpp: transaction_included, target_type, block_hash, block_header, Merkle_root, paths", "src/gigamonkey/merkle/serialize.cpp: proofs_serialization_standard::paths"]}
{"id": "C128", "title": "A tree is reported valid exactly if it is the Merkle tree of its leaves", "statement": "A tree made from a list of one or more valid digests is reported valid, and a tree that is reported valid is the tree made from a list of valid digests, as many as its width says, with the Merkle root of that list as its value.", "quantifier": "every tree of digests, width and height, and every list of fewer than 2^32 digests", "why_tests_cant": "There are unboundedly many trees that differ from a Merkle tree in one node, one leaf, the width or the height; each must be refused.", "anchors": ["src/gigamonkey/merkle.cpp: check_tree, tree::valid, tree::make", "src/gigamonkey/include/gigamonkey/merkle/tree.hpp: tree"]}
{"id": "C129", "title": "A Merkle server, its leaves and its tree stand for each other", "statement": "The tree that a server made from leaves is turned into is the tree made from these leaves. A server made from a valid tree has the digests, root and proofs of the server made from the leaves of the tree, and is turned into the same tree.", "quantifier": "every list of at most 2^30 digests, and every valid tree", "why_tests_cant": "The layout depends on the width in every level; odd levels and where each begins cannot be covered by samples.", "anchors": ["src/gigamonkey/merkle.cpp: server::server, server::operator tree, write_at_height", "src/gigamonkey/include/gigamonkey/merkle/server.hpp: server"]}
{"id": "C130", "title": "The limits of a script configuration are those of its rules, and are kept", "statement": "A configuration with given limits can be made exactly if they are the fixed limits where the flags are those of before Genesis, and within the limits of consensus after it. A configuration made from flags alone has limits that could be given, the fixed ones before Genesis and the largest ones for consensus after it. The rules of Genesis and of Chronicle allow limits to be chosen. A rule is kept exactly if its flag is among the flags of the configuration. A script that exceeds a limit of its configuration fails.", "quantifier": "every set of flags, every five 64 bit numbers, and every script", "why_tests_cant": "Flags and limits combine in more ways than can be tried, and a limit that is not looked at is only seen by a script that exceeds it.", "anchors": ["src/gigamonkey/script/config.cpp: script_config::script_config", "src/gigamonkey/include/gigamonkey/script/config.hpp: script_config, custom_script_limits, genesis_profile, chronicle_profile"]}
{"id": "C131", "title": "Minimal scripts with the same ASM text are the same script", "statement": "Every script that can be read as a program has an ASM text. Two scripts that are minimally encoded and have the same ASM text are the same bytes.", "quantifier": "every pair of scripts", "why_tests_cant": "It is a claim about all pairs of scripts, of any length: no op code may share a name with another one or with data, and words must not run together.", "anchors": ["src/gigamonkey/script/instruction.cpp: ASM, write_asm", "src/gigamonkey/script/opcodes.cpp: operator <<, GetOpName", "src/gigamonkey/include/gigamonkey/script/instruction.hpp: ASM, is_minimal_script"]}
{"id": "C132", "title": "Transactions of SPV proofs are ordered as they can come", "statement": "Of two different transactions of a proof one is less than the other exactly if it comes before: if both are confirmed, in an earlier block or at an earlier place of the same block; if only one is confirmed, that one; and otherwise if it is among the ones the other one rests on, at any depth. The order is strict: less in one direction only, and transitive.", "quantifier": "every pair and every three of transactions with their proofs, of any depth", "why_tests_cant": "Proofs are trees of any depth, and whether the order is consistent is a claim about any three of them.", "anchors": ["src/gigamonkey/SPV.cpp: proof::ordering, proof::map::contains_branch", "src/gigamonkey/include/gigamonkey/SPV.hpp: confirmation::operator <=>"]}
{"id": "C133", "title": "The target made of a difficulty is the largest one that is hard enough", "statement": "Making a target of a difficulty gives the largest number that can be a target and is not above the quotient of the unit of difficulty and the difficulty; so a share that meets it has at least the difficulty asked for, and no more is asked of it than rounding requires.", "quantifier": "every difficulty, given by the quotient, a 64 bit floating point number", "why_tests_cant": "There are 2^64 floating point numbers, and the ones that go wrong are isolated: powers of 256.", "anchors": ["src/gigamonkey/work.cpp: compact::compact (work::difficulty)", "src/gigamonkey/include/gigamonkey/work/target.hpp: compact::min, compact::max, difficulty::unit"]}
{"id": "C134", "title": "Exactly which bytes are read as a header, a transaction, a block or an extended transaction", "statement": "Bytes are read as a header, a transaction, a block or an extended transaction exactly when they begin with the fields of one in their order, each count and each length being a variable-length integer in any of its forms; what follows is left. There is at most one transaction that given bytes begin with. What is read is written back as it was exactly when the bytes are as short as what is written. Two forms the reader takes that a user would not expect: counts that are longer than they need be, for which the digest of the bytes is not the id of the transaction, and any six bytes in the place of those that mark an extended transaction.", "quantifier": "all byte strings, all headers, transactions, blocks and extended transactions", "why_tests_cant": "Tests read a few serialisations that were written by the library or a node; that no other bytes are accepted and that none of these are refused is about every byte string.", "anchors": ["src/gigamonkey/timechain.cpp: transaction::transaction, block", "src/gigamonkey/include/gigamonkey/timechain.hpp: operator >>", "src/gigamonkey/include/gigamonkey/p2p/var_int.hpp: var_sequence, var_string", "src/gigamonkey/p2p/var_int.cpp: var_int::read", "src/gigamonkey/include/gigamonkey/pay/extended.hpp: operator >>"]}
{"id": "C135", "title": "Exactly which bytes are a valid TSC proof, and what is asked of them", "statement": "Bytes are read as a valid proof exactly when they begin with flags whose lowest is not set, the index, the id of the transaction, a target of the kind that the flags say, and the counted nodes. Asked of such bytes, the functions for the kind of target, the hash of the block, the header, the root and the paths say what the proof says; of other bytes they say nothing. The flags written for a proof say what it holds. Bytes that say that the transaction is included are never valid, and the flags for a tree or for many proofs are not looked at.", "quantifier": "all byte strings and all proofs", "why_tests_cant": "The property is about all byte strings, among them those with flags that the library does not write.", "anchors": ["src/gigamonkey/include/gigamonkey/merkle/serialize.hpp: flags, transaction_included, target_type, proof_type, composite_proof, valid, block_hash, block_header, Merkle_root, paths", "src/gigamonkey/merkle/serialize.cpp: read_binary"]}
{"id": "C136", "title": "Exactly which bytes are read as a BUMP and as a BEEF", "statement": "A BUMP is made from bytes exactly when they begin with a height, the number of levels in one byte and for each level the counted nodes in any order, which are put in ascending order; nodes at different places can be given in any order. A BEEF is made from bytes exactly when they begin with a version, the counted BUMPs, and the counted transactions each followed by a zero or by another byte and the number of a BUMP. What follows is ignored. That there is one form for each BEEF is false: any byte but zero says that there is a BUMP.", "quantifier": "all byte strings, all BUMPs with levels and all BEEFs", "why_tests_cant": "Tests read a few examples; that nothing else is accepted or refused is about every byte string.", "anchors": ["src/gigamonkey/merkle/BUMP.cpp: operator >>", "src/gigamonkey/pay/BEEF.cpp: operator >>", "src/gigamonkey/include/gigamonkey/pay/BEEF.hpp: BEEF::BEEF"]}
{"id": "C137", "title": "Parts taken from the bytes of an output or a block are those of what is made from them", "statement": "An input, an output or a block is made from bytes exactly when they begin with one. The value and the script taken from the bytes of an output are those of the output, and bytes that do not begin with an output are not valid. The transactions found in the bytes of a block are exactly the counted ones after the header, and the Merkle root taken from the bytes is the one over the transactions of the block when the bytes are as short as they can be. Not so: a script taken from an output that is cut off is a slice that reaches beyond the bytes, and with longer counts the root taken from the bytes is another than the one over the transactions.", "quantifier": "all byte strings, inputs, outputs and blocks, and every hash function", "why_tests_cant": "Tests take parts of a few serialisations; bytes that end anywhere and all forms of the counts are not in them.", "anchors": ["src/gigamonkey/timechain.cpp: input::input, output::output, output::value, output::script, block::block, block::transactions", "src/gigamonkey/include/gigamonkey/timechain.hpp: block::merkle_root, output::valid"]}
{"id": "C138", "title": "Random numbers are below the bound, unbiased, and made of bits used once", "statement": "A random number asked for below a bound is below it and every number below the bound is as likely as any other; a fast random context answers any sequence of questions with bits of its generator of which none is used twice, and never undefinedly.", "quantifier": "every bound, every sequence of draws of the underlying generator, every way to make a context and every sequence of calls", "why_tests_cant": "uniformity is a statement about all draws, and reuse of bits shows only in some sequences of calls", "anchors": ["src/sv/random.cpp: GetRand, GetRandInt, FastRandomContext::RandomSeed, rand256, randbytes", "src/sv/include/sv/random.h: FastRandomContext, rand64, randbits, randrange"]}
{"id": "C139", "title": "Strong random bytes are made of every source or not at all", "statement": "Strong random bytes are given only if OpenSSL and the system have each given 32 bytes, and are then a hash of those, of what the hardware gave and of all earlier uses; no string is hashed twice, whatever the order of uses by threads; the check of the system's source succeeds exactly if every byte has been seen to change.", "quantifier": "every system, every outcome of every call to it, every history of uses", "why_tests_cant": "system calls fail and give partial results in ways a test cannot make happen, and histories are unbounded", "anchors": ["src/sv/random.cpp: GetStrongRandBytes, GetOSRand, GetDevURandom, GetHWRand, AddDataToRng, RandAddSeedSleep, Random_SanityCheck", "src/gigamonkey/schema/random.cpp: bitcoind_entropy::read"]}
{"id": "C140", "title": "A mining client works on what it was last told", "statement": "After any sequence of requests sent and messages received, the difficulty, the extra nonce, the version mask and the job of a client session are those of the last notification that says such a thing; a notification that says none of these and is no message to be shown is an exception and changes nothing; and what a server session of the library sends to set one of them is taken as just that by a client session of the library.", "quantifier": "every sequence of events of a client session, every state of a server session and everything it can be asked to send", "why_tests_cant": "sequences of messages are unbounded, and the two ends are tested apart if at all", "anchors": ["src/gigamonkey/stratum/client_session.cpp: receive_notification", "src/gigamonkey/include/gigamonkey/stratum/client_session.hpp: receive_notify, receive_set_difficulty, receive_set_extranonce, receive_set_version_mask", "src/gigamonkey/include/gigamonkey/stratum/server_session.hpp: send_set_difficulty, send_set_extranonce, send_set_version_mask, send_notify"]}
{"id": "C141", "title": "A mining server knows the version that the client has said", "statement": "After any sequence of questions for the version and of messages, the version that a server session knows of its client is the one in the last answer that had one; an answer without one is an exception and changes nothing; and a client session of the library answers the question once.", "quantifier": "every sequence of questions, of their completions and of messages that come in", "why_tests_cant": "sequences of messages are unbounded and questions may overlap", "anchors": ["src/gigamonkey/stratum/server_session.cpp: receive_response", "src/gigamonkey/include/gigamonkey/stratum/server_session.hpp: send_get_version, client_version", "src/gigamonkey/include/gigamonkey/stratum/client_get_version.hpp: get_version_response", "src/gigamonkey/stratum/client_session.cpp: receive_request"]}
{"id": "C142", "title": "Keys and signatures can be used by several threads", "statement": "Whatever the order in which any number of threads use keys and signatures, no two of them touch the same memory at once with one of them writing to it; what the library keeps for its computations is made once, every thread is given the same, and it is given back when the program ends.", "quantifier": "every number of threads and every order of their steps", "why_tests_cant": "which order threads run in is not chosen by a test, and the order that matters occurs once, at the first use", "anchors": ["src/gigamonkey/secp256k1.cpp: context, Verification, Signing"]}
{"id": "C143", "title": "A signature can be made of its two numbers and taken apart again", "statement": "For every two numbers, what is written of them is a signature and is read back as the same two numbers, leaving what follows; a signature is read as the two numbers that are in it; and a signature with a directive gives back the signature and the directive it was made of.", "quantifier": "every two numbers of 32 bytes, every directive, every sequence of bytes", "why_tests_cant": "the sizes depend on the leading bytes of both numbers, and one pair of numbers in a test says nothing of the others", "anchors": ["src/gigamonkey/secp256k1.cpp: operator >> (reader &, point &)", "src/gigamonkey/include/gigamonkey/secp256k1.hpp: point, operator << (writer &, const point &), signature::serialized_size", "src/gigamonkey/include/gigamonkey/numbers.hpp: serialized_size", "src/gigamonkey/include/gigamonkey/signature.hpp: signature"]}
{"id": "C144", "title": "A node tells others what it was told to say of itself", "statement": "What a node sends of itself when it connects determines everything it was told to say that its version of the protocol has, and has it at the places and in the order of bytes of the protocol; the size reported is the number of bytes written; and the address, the port and the name of a command are those given.", "quantifier": "every version message, every address and port, every name of a command", "why_tests_cant": "there are three layouts by version and an agent of any length; a test writes one message", "anchors": ["src/gigamonkey/p2p/version.cpp: operator << (writer &, const version_message &)", "src/gigamonkey/include/gigamonkey/p2p/version.hpp: version_message, serialized_size", "src/gigamonkey/include/gigamonkey/p2p/net_address.hpp: endpoint, net_address", "src/gigamonkey/include/gigamonkey/p2p/command.hpp: command"]}
{"id": "C145", "title": "Two SPV proofs that are equal are worth the same", "statement": "For every two SPV proofs the comparison for equality gives an answer; it is an equivalence; and if two proofs are equal then checking them says the same, whatever the headers known and the rules of scripts.", "quantifier": "every two proofs: any payments, any trees of transactions, confirmations and paths, null pointers included; every database", "why_tests_cant": "trees of any depth and width are compared and checked; a test compares a proof with a copy of itself", "anchors": ["src/gigamonkey/include/gigamonkey/SPV.hpp: confirmation::operator ==, proof::accepted::operator ==, proof::node::operator ==, proof::map::operator ==, proof::operator ==", "src/gigamonkey/SPV.cpp: proof::validate"]}
{"id": "C146", "title": "A wallet is found again from its words and its passphrase or PIN", "statement": "For every words, passphrase or PIN and account, the wallet made of them is that of the wallet program it is named for: the seed is derived of the words and the passphrase as BIP 39 has it, in every language whose words the library has, and the key is at the place in the tree that the program uses. Every PIN that can be typed can be given. Different words or passphrases are different inputs of the derivation of the seed, for Electrum SV too.", "quantifier": "every words, passphrase, PIN, account, network and derivation function", "why_tests_cant": "a test has one phrase with one seed; that no two phrases and passphrases are taken for each other is about all pairs", "anchors": ["src/gigamonkey/schema/bip_39.cpp: read", "src/gigamonkey/schema/electrum_SV.cpp: read", "src/gigamonkey/include/gigamonkey/schema/bip_39.hpp: simply_cash_wallet, moneybutton_wallet, relay_x_wallet, centbee_wallet", "src/gigamonkey/include/gigamonkey/schema/bip_44.hpp: master, from_root"]}
{"id": "C147", "title": "Functions on texts and byte strings do what the opcodes do that they are named for", "statement": "For every text or byte string and number, left and right give the first and the last so many characters and throw exactly if there are too few; split gives the two parts of which cat makes the whole; the bitwise functions combine bit by bit, a shorter string being extended to the same number; and the functions on truth values take exactly zero, in every way of writing it, as false.", "quantifier": "every text, every pair of byte strings and every number", "why_tests_cant": "the parts are of all lengths, and what is wrong shows only in some of them", "anchors": ["src/gigamonkey/include/gigamonkey/numbers.hpp: left, right, split, bool_not, bool_and, bool_or", "src/gigamonkey/numbers.cpp: cat, bit_and, bit_or, bit_xor, bit_not"]}
{"id": "C148", "title": "Values that compare equal are the same, and orders agree with equality", "statement": "For all references to outputs, headers, Boost outputs, Merkle leaves, paths, branches and proofs and nodes of BUMPs, the order is one by which they can be sorted, and two of them are neither before nor after each other exactly if they are the same; and two Boost proofs, BEEFs or answers to a subscription are equal exactly if they are the same.", "quantifier": "every pair and every triple of values of each type", "why_tests_cant": "an order is wrong through a triple of values that is nowhere tested, and equality through a part that no test varies", "anchors": ["src/gigamonkey/include/gigamonkey/timechain.hpp: operator <=>", "src/gigamonkey/include/gigamonkey/merkle/proof.hpp: operator ==, operator <=>", "src/gigamonkey/include/gigamonkey/merkle/BUMP.hpp: node::operator <=>", "src/gigamonkey/include/gigamonkey/boost/boost.hpp: operator ==, prevout::operator <=>", "src/gigamonkey/include/gigamonkey/pay/BEEF.hpp: BEEF::operator ==", "src/gigamonkey/include/gigamonkey/stratum/mining_subscribe.hpp: operator =="]}
{"id": "C149", "title": "The forms of a public key stand for the same key", "statement": "For every public key and every way of writing it that is taken for valid, compressing gives the compressed form and decompressing the uncompressed form of the same key; two forms are equal exactly if they are forms of one key; the coordinates given are those of the key; and the public key of a secret is in the form that the secret is marked for.", "quantifier": "every point of the curve, every byte string and every secret", "why_tests_cant": "keys are of about 2^256 values and the forms of each are several; tests use the forms that the library writes itself", "anchors": ["src/gigamonkey/secp256k1.cpp: pubkey::compress, pubkey::decompress, pubkey::x, pubkey::y", "src/gigamonkey/include/gigamonkey/secp256k1.hpp: operator ==, pubkey::valid", "src/gigamonkey/include/gigamonkey/wif.hpp: secret::to_public"]}
{"id": "C150", "title": "Asked for a member, a Boost script gives the one that was put into it", "statement": "For every Boost output script and input script made with the constructors and written to bytes, each of the functions that take the bytes and give one member (type, valid, version, content, target, tag, user nonce, additional data, miner hash; signature, public key, timestamp, nonce, miner hash, solution) gives the member that was put in: the version is the category of the script, and the solution is the solution of the proof that the two scripts make.", "quantifier": "every category, content, target, tag, user nonce, data and miner hash; every input script of both types with and without general purpose bits; every hash function", "why_tests_cant": "A test asks a handful of scripts, and for a script made with category 1 or without general purpose bits some of the wrong answers are right.", "anchors": ["src/gigamonkey/include/gigamonkey/boost/boost.hpp: output_script::type, valid, version, content, target, tag, user_nonce, additional_data, miner_pubkey_hash", "src/gigamonkey/include/gigamonkey/boost/boost.hpp: input_script::type, valid, signature, pubkey, timestamp, nonce, miner_pubkey_hash, solution"]}
{"id": "C151", "title": "The fee calculated for a size is the least amount that pays the rate", "statement": "For every fee rate (satoshis for a number of bytes) and every size, calculate_fee gives the least whole number of satoshis that pays at least the rate for that size; a longer transaction, more satoshis or fewer bytes never give a smaller fee; at a rate without bytes, and only there, it throws.", "quantifier": "every 64-bit number of satoshis that is not negative, every 64-bit number of bytes and every 64-bit size", "why_tests_cant": "The result is that of three conversions to double, a product and a quotient, each rounded; whether the number above is still the right one depends on every digit, and the inputs that are wrong are sparse.", "anchors": ["src/gigamonkey/include/gigamonkey/satoshi.hpp: calculate_fee, satoshis_per_byte"]}
{"id": "C152", "title": "Difficulties and targets stand for each other", "statement": "For valid compact targets, the one below has the greater difficulty and only equal targets have the same difficulty; the target made from the difficulty of a target is that target; the number that a difficulty is converted to is the target; and a Boost candidate that is worth as much and has an easier target is at least as profitable.", "quantifier": "every compact target; every two targets; every value of a candidate", "why_tests_cant": "Difficulty is a double: the quotient is rounded twice on the way to the target and back, and about one target in twelve is affected.", "anchors": ["src/gigamonkey/include/gigamonkey/work/target.hpp: compact::difficulty, difficulty", "src/gigamonkey/work.cpp: compact::compact (difficulty), difficulty::operator uint256", "src/gigamonkey/include/gigamonkey/boost/boost.hpp: candidate::difficulty, candidate::profitability"]}
{"id": "C153", "title": "A mining server remembers its recent jobs and no others", "statement": "After any jobs have been pushed to the history of a server session, it holds, the newest first, exactly the jobs that are older than the last one by no more than the time to remember; no job is forgotten earlier, and none between two that are remembered is missing.", "quantifier": "every sequence of jobs with any times, and every time to remember", "why_tests_cant": "Forgetting takes from the back while the oldest is too old, so what remains depends on every earlier job and on the order of their times.", "anchors": ["src/gigamonkey/include/gigamonkey/stratum/server_session.hpp: history::push, history::entry::time", "src/gigamonkey/include/gigamonkey/timestamp.hpp: timestamp::operator -"]}
{"id": "C154", "title": "A valid Boost puzzle can be redeemed, by inputs no longer than announced", "statement": "If a Boost puzzle is valid, it has outputs, its script is that of a Boost output, its key is a usable key and, for a contract, the key of the miner named; so that it can be redeemed by every valid solution. When it is redeemed, the inputs of the transaction take no more bytes than expected_size, and can take as many.", "quantifier": "every puzzle, key, solution, hash function and list of outputs", "why_tests_cant": "Sizes of signatures vary with every signature and sizes of nonces with every solution; a fee computed from the expected size is too small only for the rare long ones.", "anchors": ["src/gigamonkey/boost/boost.cpp: puzzle::valid, puzzle::expected_size, puzzle::redeem", "src/gigamonkey/include/gigamonkey/boost/boost.hpp: candidate::valid, input_script::expected_size"]}
{"id": "C155", "title": "A header or transaction reports the hash that a loader has told it", "statement": "A loader that knows the hash of a header or transaction can tell it, and the hash told is the one reported when it is asked for next. As long as only right hashes are told, every hash reported is that of the contents, and telling the hash after a change makes the report right again.", "quantifier": "every history of changes, assignments, requests and hashes told, for headers and transactions", "why_tests_cant": "Whether the hash that was told is taken depends on what was asked before, so that only the history as a whole decides.", "anchors": ["src/gigamonkey/include/gigamonkey/timechain.hpp: chain_loader::set_hash, transaction::id, header::hash"]}
{"id": "C156", "title": "What is printed of instructions and script errors tells them apart", "statement": "Two instructions that verification accepts are printed alike only if they are the same, and two script errors only if they are the same.", "quantifier": "every pair of instructions, with data of any length, and every pair of script errors", "why_tests_cant": "that printing loses nothing is about every pair of pushes, whose data is not bounded", "anchors": ["src/gigamonkey/script/instruction.cpp: write_op_code, operator <<", "src/gigamonkey/script/opcodes.cpp: operator <<, GetOpName", "src/gigamonkey/script/error.cpp: ScriptErrorString"]}
{"id": "C157", "title": "A payment made from a wallet's keys and database is accepted by whoever receives it", "statement": "If every input of a transaction design is an output, in the database, that pays to the address or public key of the given key, and no more is sent than is spent, then redeeming the design gives a transaction for which a proof can be made out of the database, and checking the payment with its proof succeeds, under the scripts' rules before and after genesis. Written as BEEF and read back by someone who has the headers it is the same payment, and is accepted.", "quantifier": "every database whose transactions that are not confirmed are themselves acceptable and whose confirmations are true, every design, every key, hash and fork-id directive", "why_tests_cant": "it joins signing, the script interpreter, Merkle proofs and two encodings; each test would try one wallet, one chain and one set of keys", "anchors": ["src/gigamonkey/redeem.cpp: redeemable_transaction::redeem", "src/gigamonkey/SPV.cpp: generate_proof, proof::validate, check_sub_proof", "src/gigamonkey/pay/BEEF.cpp: BEEF (const SPV::proof &), read_SPV_proof_leaf, read_SPV_proof_node", "src/gigamonkey/include/gigamonkey/script.hpp: redemption_document"]}
{"id": "C158", "title": "What is sent to the addresses of an account is spent with its secret key", "statement": "A transaction that spends outputs sent to addresses given out from an account's public key, as texts, for receiving or change and for any index, is redeemed with the keys derived for the same indices from the account's secret key, and every input script it is given spends its output.", "quantifier": "every account, index, address given out, behaviour of the hash functions, design and directive", "why_tests_cant": "the addresses and keys are made apart from each other by functions with pseudorandom values: tests try a few indices of a few accounts", "anchors": ["src/gigamonkey/include/gigamonkey/schema/bip_44.hpp: account_pubkey, account_secret", "src/gigamonkey/schema/hd.cpp: pubkey::derive, secret::derive", "src/gigamonkey/address.cpp: address::encode, address::decode", "src/gigamonkey/redeem.cpp: redeemable_transaction::redeem"]}
{"id": "C159", "title": "What is mined for a Boost puzzle redeems its outputs", "statement": "Whatever the library's miner finds for the puzzle of some Boost outputs, started from a solution of the form that the outputs ask for, makes with the key a transaction in which every input script unlocks its Boost output. If a database has the outputs, a proof of that transaction can be made from it, and the proof is accepted by everyone who knows the headers.", "quantifier": "every Boost output, key, puzzle with any number of outputs, start of the search, number of rounds, hash function and database", "why_tests_cant": "the solution is found by a search and checked by three other parts, the redemption, the script interpreter and the validation of proofs, whose agreement is to hold for all targets and all outputs", "anchors": ["src/gigamonkey/work.cpp: cpu_solve", "src/gigamonkey/boost/boost.cpp: puzzle::redeem", "src/gigamonkey/include/gigamonkey/boost/boost.hpp: puzzle", "src/gigamonkey/SPV.cpp: generate_proof, proof::validate"]}
{"id": "C160", "title": "A payment is accepted exactly if each of its transactions is", "statement": "A payment with a proof is accepted exactly if no two of its transactions are the same and each of them would be accepted alone. A transaction is accepted alone exactly if every input spends an output of a transaction in the proof, by the rules in force when that was confirmed or the present rules if it is not, no more is sent than is spent, and the same holds of what is spent, down to transactions in known blocks.", "quantifier": "every payment, proof of any depth and width, time of the upgrade and behaviour of scripts", "why_tests_cant": "transactions that have been checked are remembered and not checked again: a test has few transactions, which are seldom met twice", "anchors": ["src/gigamonkey/SPV.cpp: proof::validate, proof_validate, check_sub_proof", "src/gigamonkey/include/gigamonkey/SPV.hpp: proof::validate, time_limit"]}
{"id": "C161", "title": "A seed phrase is valid in the language of its words", "statement": "A text made of words of the list of a language, with the space of that language between them and the right checksum, is valid in that language, and what is valid does not depend on how its letters are written as bytes.", "quantifier": "every text in UTF-8, both languages and every hash function", "why_tests_cant": "the text is cut at bytes, not at letters, and whether that is the same depends on every byte of 2048 words and of all texts", "anchors": ["src/gigamonkey/schema/bip_39.cpp: valid, getWordList, getLangSplit, japanese_words", "src/gigamonkey/include/gigamonkey/schema/bip_39.hpp: language"]}
{"id": "C162", "title": "An output that is called provably unspendable is never spent", "statement": "Of an output whose script is called provably unspendable the library's interpreter accepts no unlocking script, before genesis and after.", "quantifier": "every script and unlocking script, both eras, all flags and signatures", "why_tests_cant": "no list of unlocking scripts that fail shows that all do", "anchors": ["src/gigamonkey/include/gigamonkey/script/instruction.hpp: provably_unspendable", "src/gigamonkey/script/machine.cpp: step (OP_RETURN)", "src/gigamonkey/script/instruction.cpp: pre_verify"]}
{"id": "C163", "title": "An output that pays to the hash of a script is spent only with that script", "statement": "Evaluating an unlocking script against HASH160 <20 bytes> EQUAL, with the flag for payments to script hashes set, reports success exactly if the unlocking script only pushes data, the last thing pushed is a script whose hash is the one named, and running that script on the rest of what was pushed leaves a true value (and nothing else if a clean stack is asked for). Signatures in that script are checked against that script.", "quantifier": "every configuration with the flag set, every 20-byte hash, every unlocking script and every transaction checked against", "why_tests_cant": "A test tries some redeem scripts; that no script with another hash is accepted concerns every program the spender may push, and the pushed program runs before the hash is compared, so each opcode must be shown to lead to that comparison.", "anchors": ["src/gigamonkey/script/interpreter.cpp: setup_interpreter", "src/gigamonkey/script/instruction.cpp: full", "src/gigamonkey/script/machine.cpp: machine::step"]}
{"id": "C164", "title": "Stricter rules accept nothing more", "statement": "What a script evaluation reports as success under some rules it reports as success under rules that are less strict: with any of the flags that demand something left out (strict encodings, DER, low S, compressed keys, fork id, null dummy, null fail, pushes only, minimal data, minimal IF, no reserved NOPs, clean stack, lock times, payments to script hashes), or with any of the limits on operations, keys, memory and numbers raised.", "quantifier": "every pair of configurations of which one is stricter, every pair of scripts, every transaction and input", "why_tests_cant": "A test compares a few scripts under two sets of flags. That no script at all slips through a stricter set has to be shown for every opcode, every limit and every check of signatures in every state.", "anchors": ["src/gigamonkey/script/machine.cpp: machine::step", "src/gigamonkey/script.cpp: verify_signature", "src/gigamonkey/script/interpreter.cpp: setup_interpreter", "src/gigamonkey/script/instruction.cpp: valid_program, pre_verify", "src/gigamonkey/include/gigamonkey/script/config.hpp: flag, script_config"]}
{"id": "C165", "title": "A transaction proved to be in a block is one of its transactions", "statement": "If a confirmation of a transaction is accepted (the Merkle path in it leads from the id of the transaction to the root in a valid header that is known), then the transaction is one of the transactions of the block with that header.", "quantifier": "every transaction, every path of whatever length and index, every block, every hash function up to collisions between strings that are hashed for the path and for the block", "why_tests_cant": "A test tries good paths and paths with a wrong digest. Paths of any other length from any other transaction to the same root are too many to try, and the ones that work have to be made for the purpose.", "anchors": ["src/gigamonkey/SPV.cpp: proof::validate, database::memory", "src/gigamonkey/merkle.cpp: root, round", "src/gigamonkey/include/gigamonkey/merkle/proof.hpp: branch, proof"]}
{"id": "C166", "title": "A Merkle root belongs to one list of transactions", "statement": "Two non-empty lists of transactions with the same Merkle root are the same list.", "quantifier": "every pair of non-empty lists of transactions of any lengths, every hash function up to collisions between strings that are hashed for the two roots", "why_tests_cant": "A test compares the roots of a few lists. The lists with the same root are those of a particular shape, and there is no end of pairs of lists to compare.", "anchors": ["src/gigamonkey/merkle.cpp: root, round", "src/gigamonkey/include/gigamonkey/timechain.hpp: merkle_root", "src/gigamonkey/timechain.cpp: block::valid"]}
{"id": "C167", "title": "Only who has the key spends a payment to an address", "statement": "Whatever unlocking script is given, an output that pays to an address (or to a public key) is spent only if the script provides a key with the hash of the address (or a signature of the very key) and a signature of it, passing the checks demanded by the flags, over a digest of the spending transaction, the value and the output script. Under rules that demand minimal pushes and a clean stack the bytes of the unlocking script are determined by that signature and that key.", "quantifier": "every unlocking script, address, public key, transaction, input, value, configuration and document", "why_tests_cant": "the claim is about all scripts that someone could write to steal money, not about the scripts the library makes; a test tries a few", "anchors": ["src/gigamonkey/script/machine.cpp: machine::step OP_CHECKSIGVERIFY, OP_RETURN", "src/gigamonkey/include/gigamonkey/script/pattern/pay_to_address.hpp: pay_to_address", "src/gigamonkey/include/gigamonkey/script/pattern/pay_to_pubkey.hpp: pay_to_pubkey", "src/gigamonkey/script.cpp: verify_signature", "src/gigamonkey/SPV.cpp: proof_validate"]}
{"id": "C168", "title": "Any owners of enough keys, and nobody else, spend a payment to several keys", "statement": "An output whose script demands signatures of w of n public keys (OP_CHECKMULTISIG, 1 <= w <= n <= 16) is spent by the owners of any w of the keys, if they sign the transaction in the order of the keys; and whatever unlocking script is given, it is spent only with w signatures of different keys of the script, each passing the checks demanded by the flags, over a digest of the spending transaction, the value and the output script.", "quantifier": "every unlocking script, number and list of keys, transaction, input, value, configuration and document", "why_tests_cant": "both directions range over all scripts someone could write, all choices of keys and all signatures; a test tries a few", "anchors": ["src/gigamonkey/script/machine.cpp: machine::step OP_CHECKMULTISIG, OP_CHECKMULTISIGVERIFY", "src/gigamonkey/script.cpp: verify_signature", "src/gigamonkey/SPV.cpp: extend validation of scripts"]}
{"id": "C169", "title": "What a signature does not cover can be changed afterwards, and what it covers cannot be left out", "statement": "An input that spends a payment to an address, to a public key or to several keys is accepted or refused just the same in any other transaction that agrees in what the directives of its signatures cover: version, lock time and the input itself without its script, all inputs spent unless ANYONECANPAY is given, their sequence numbers unless NONE or SINGLE is given, and the outputs unless NONE is given, or for SINGLE the one output. Inputs can therefore be signed one after the other. A signature whose directive says neither NONE nor SINGLE is not accepted when the outputs are changed.", "quantifier": "every two transactions, inputs, values, keys, signatures and directives, under the rules before and since Genesis", "why_tests_cant": "the transactions that may differ in uncovered parts are unbounded, and the checks go through the whole interpreter", "anchors": ["src/gigamonkey/sighash.cpp: Amaury::write", "src/gigamonkey/signature.cpp: signature::hash", "src/gigamonkey/script.cpp: verify_signature", "src/gigamonkey/script/machine.cpp: machine::step", "src/gigamonkey/include/gigamonkey/sighash.hpp: sighash::valid, sighash::base"]}
{"id": "C170", "title": "A script that checks no signature and no lock time is worth the same in every transaction", "statement": "If neither script (nor, where the output pays to the hash of a script, the script that is given) has one of the instructions CHECKSIG, CHECKSIGVERIFY, CHECKMULTISIG, CHECKMULTISIGVERIFY, CHECKLOCKTIMEVERIFY and CHECKSEQUENCEVERIFY, then evaluating them gives the same answer for every transaction, input and value, and without a transaction.", "quantifier": "every pair of scripts below 2^31 bytes, every configuration, every two documents or none", "why_tests_cant": "it is a statement about pairs of executions over all scripts and transactions", "anchors": ["src/gigamonkey/script/machine.cpp: machine::step", "src/gigamonkey/script/interpreter.cpp: setup_interpreter, machine_run", "src/gigamonkey/include/gigamonkey/script/interpreter.hpp: evaluate"]}
{"id": "C171", "title": "What is pushed before the arguments of a script makes no difference, and is refused where the stack has to be clean", "statement": "If further pushes are put in front of an unlocking script that only pushes and that is accepted, then the output script is evaluated as before: it is accepted again where the rules do not demand a clean stack (unless there is no room on the stack), and refused where they do. So nobody can change an accepted transaction in this way where a clean stack is demanded, and anybody can where it is not.", "quantifier": "every output script, every unlocking script of pushes, every list of allowed pushes, every configuration and transaction", "why_tests_cant": "it relates the executions of every script on all pairs of stacks of which one extends the other", "anchors": ["src/gigamonkey/script/machine.cpp: machine::step", "src/gigamonkey/script/stack.cpp: limited_two_stack", "src/gigamonkey/include/gigamonkey/script/stack.hpp: two_stack, limited_two_stack", "src/gigamonkey/script/interpreter.cpp: setup_interpreter, machine_run", "src/gigamonkey/script/instruction.cpp: full, pre_verify"]}
{"id": "C172", "title": "A Boost output is spent only by the owner of a key for which the work has been done", "statement": "Whatever unlocking script is given, a transaction that spends a Boost output and is accepted pushes the fields of a Boost input such that the proof of work made of output and input is valid, the work commits to the hash of the pushed key, and the owner of this key has signed the transaction. By the rules since Genesis nothing else is pushed. Conversely whoever has done the work and signs can spend the output.", "quantifier": "every Boost output, every unlocking script (any number of values, pushed in any way), every transaction, value and hash function", "why_tests_cant": "it is about all unlocking scripts against a script of about a hundred instructions, with hashes and signatures left abstract", "anchors": ["src/gigamonkey/boost/boost.cpp: output_script::write, input_script::program, proof", "src/gigamonkey/include/gigamonkey/boost/boost.hpp: output_script, input_script, proof, puzzle", "src/gigamonkey/script/machine.cpp: machine::step", "src/gigamonkey/script/interpreter.cpp: setup_interpreter", "src/gigamonkey/script.cpp: verify_signature"]}
{"id": "C173", "title": "How values are pushed makes no difference to an output script, and where pushes must be minimal there is only one way", "statement": "Two unlocking scripts that only push, in ways that the rules allow, and that push the same values are worth the same for every output script. Where the rules demand minimal pushes, and scripts that only push, two accepted unlocking scripts that push the same values are the same bytes, so nobody can change a transaction that is passed on (and its id) by writing the pushes in another way.", "quantifier": "every output script, every pair of unlocking scripts of pushes with the same values, every configuration and transaction", "why_tests_cant": "it compares the executions of every script after all pairs of ways to write the same arguments", "anchors": ["src/gigamonkey/script/machine.cpp: machine::step", "src/gigamonkey/script/interpreter.cpp: setup_interpreter, machine_run", "src/gigamonkey/script/instruction.cpp: full, pre_verify, is_minimal_push, instruction::push_data", "src/gigamonkey/include/gigamonkey/script/counter.hpp: program_counter, to_last_code_separator"]}
{"id": "C174", "title": "Only who can sign for it changes the id of a transaction that spends payments to addresses", "statement": "If two transactions differ in nothing but their unlocking scripts, both are accepted as spending the same payments to addresses, and their ids differ, then somebody has made another signature: in some input there is another key with the same hash, or a signature with another directive, or another signature by the same key over the same digest that is not only the old one with S negated. Whoever only passes a transaction on cannot change its id.", "quantifier": "every pair of transactions with any number of inputs, every list of payments to addresses, every pair of unlocking scripts", "why_tests_cant": "it quantifies over everything that could be put in place of the unlocking scripts of a transaction", "anchors": ["src/gigamonkey/script.cpp: verify_signature", "src/gigamonkey/secp256k1.cpp: signature::minimal, signature::normalized, pubkey::verify", "src/gigamonkey/script/interpreter.cpp: setup_interpreter, machine_run", "src/gigamonkey/include/gigamonkey/timechain.hpp: transaction, id", "src/gigamonkey/include/gigamonkey/script/config.hpp: genesis_profile, pre_genesis_profile"]}
{"id": "C175", "title": "Accepted unlocking scripts change only in the values that they push, and for payments to addresses and keys those are signatures", "statement": "By the rules since Genesis, if two transactions differ in nothing but their unlocking scripts, both are accepted as spending the same outputs, whatever the output scripts are, and their ids differ, then some input pushes other values than before. If the outputs pay to addresses, to keys, and to some number of several keys, in any mixture, then some signature in it is another one: of another key, with another directive, or with other numbers than before or before with S negated. With several keys, one of the signers is enough to make such a change.", "quantifier": "every pair of transactions with any number of inputs, every list of spent outputs, every pair of unlocking scripts (up to a gigabyte), every number of keys, every library that reads signatures as strictly as libsecp256k1", "why_tests_cant": "it quantifies over everything that could be put in place of the unlocking scripts, for all kinds of payments at once", "anchors": ["src/gigamonkey/script.cpp: verify_signature", "src/gigamonkey/script/machine.cpp: machine::step", "src/gigamonkey/script/interpreter.cpp: setup_interpreter, machine_run", "src/gigamonkey/include/gigamonkey/timechain.hpp: transaction, id", "src/gigamonkey/include/gigamonkey/script/pattern/pay_to_pubkey.hpp: pay_to_pubkey", "src/gigamonkey/include/gigamonkey/script/config.hpp: genesis_profile"]}
{"id": "C176", "title": "No value comes into being along a whole proof", "statement": "If a payment is accepted with a proof whose transactions are filed under their ids, and no output is spent by two inputs, then the transactions of the payment, together with the unconfirmed ones of the proof that they rest on, leave no more value unspent than the confirmed outputs that they spend. So, if no amount is negative, no output of the payment is worth more than the confirmed outputs spent for it.", "quantifier": "every payment of any number of transactions, every proof of any shape and depth, every tree of ancestors in which transactions may be shared", "why_tests_cant": "conservation has to hold along every chain of unconfirmed transactions, however deep and however often they share ancestors, not only for one transaction at a time", "anchors": ["src/gigamonkey/SPV.cpp: proof::validate, proof_validate", "src/gigamonkey/include/gigamonkey/SPV.hpp: proof", "src/gigamonkey/include/gigamonkey/timechain.hpp: transaction, id"]}
{"id": "C177", "title": "Nobody's money moves in an accepted payment without their signature", "statement": "If a payment is accepted with a proof whose transactions are filed under their ids, then every output that its transactions spend, and every output that the unconfirmed transactions they rest on spend, down to confirmed transactions, is spent with the signatures of those that it pays: of a key with the hash of the address, of the key, or of the demanded number of several keys, each over a digest of the spending transaction, the value and the output script.", "quantifier": "every payment of any number of transactions, every proof of any shape and depth, every output that pays to an address, a key or several keys, every unlocking script, every time of the genesis upgrade", "why_tests_cant": "a thief may choose the unlocking scripts, the shape of the proof, and the headers in it", "anchors": ["src/gigamonkey/SPV.cpp: proof::validate, proof_validate", "src/gigamonkey/include/gigamonkey/SPV.hpp: proof", "src/gigamonkey/script/interpreter.cpp: setup_interpreter", "src/gigamonkey/include/gigamonkey/script/config.hpp: genesis_profile, pre_genesis_profile"]}
{"id": "C178", "title": "What is accepted out of a BEEF has been signed for and is covered by what is confirmed", "statement": "If the payment read from a BEEF is accepted, everything spent by its transactions and by those of the BEEF they rest on, down to transactions in blocks, is spent with the signatures of those it was paid to, and they leave no more value unspent than that of the confirmed outputs they spend. Nothing is assumed of the BEEF: not that its transactions have the ids they are listed by, nor that headers are those of the chain.", "quantifier": "every BEEF, every database of headers, every time of the genesis upgrade", "why_tests_cant": "whoever pays makes the BEEF, and may put anything into it", "anchors": ["src/gigamonkey/pay/BEEF.cpp: read_SPV_proof_leaf, read_SPV_proof_node", "src/gigamonkey/SPV.cpp: proof::validate, proof_validate"]}
{"id": "C179", "title": "Payments to a key move only as its owner has signed", "statement": "What was paid to an address, to a public key or to several keys is spent only by transactions that agree, in everything that the directives of their signatures cover, with a document that the owners have signed. Knowing the public key alone is not enough, nor is having seen any signatures. In particular, if they sign nothing but whole transactions, then only these transactions spend what they were paid.", "quantifier": "every transaction and input, every unlocking script, every payee, every set of documents signed before; every hash function without collisions and every library whose signatures nobody can forge for digests other than zero", "why_tests_cant": "unlocking scripts and transactions are those of an adversary", "anchors": ["src/gigamonkey/signature.cpp: signature::hash", "src/gigamonkey/script.cpp: verify_signature", "src/gigamonkey/secp256k1.cpp: pubkey::verify", "src/gigamonkey/SPV.cpp: proof::validate"]}
{"id": "C180", "title": "What is accepted stays accepted", "statement": "A payment that is accepted with its proof is accepted again later: after any changes to the database by which the blocks of its proof are not removed, whether headers, transactions and proofs are inserted or the chain is reorganised above them; after more transactions are put into the proof; and after transactions of the proof that were not confirmed have got into a known block and are proved by that. Whoever knows the same blocks accepts it too.", "quantifier": "every payment and proof, every database, every history of changes to it", "why_tests_cant": "it is about any two points in a history and any proof", "anchors": ["src/gigamonkey/SPV.cpp: proof::validate, proof_validate, memory::insert, memory::header, memory::remove_header"]}
{"id": "C181", "title": "Every script and every payment gets an answer", "statement": "Evaluating any two scripts gives a result, success or a script error, and validating any payment with any proof gives yes or no. Nothing that somebody can send makes the check end with an exception or do something undefined.", "quantifier": "every pair of scripts, rules, transaction, payment, proof of any depth and width, and database", "why_tests_cant": "What cannot be answered has to be found among all scripts and proofs; tests run the ones somebody has thought of, and one that nobody has thought of stops whoever checks payments.", "anchors": ["src/gigamonkey/SPV.cpp: proof::validate, check_sub_proof", "src/gigamonkey/script/interpreter.cpp: setup_interpreter, catch_all_errors", "src/gigamonkey/script/instruction.cpp: read_push, decompile", "src/gigamonkey/include/gigamonkey/script/interpreter.hpp: evaluate"]}
{"id": "C182", "title": "What is accepted out of an SPV envelope has been signed for and is covered by what is confirmed", "statement": "If an SPV envelope is valid, and the payment read from it is accepted, then every output that is spent in it, down to what is confirmed, and that was paid to an address or to a key, has been signed for by its owner; and the payment with transactions of the envelope leaves no more value than what they take out of confirmed ones. The envelope cannot change what the database says about a block.", "quantifier": "every envelope of any depth and width, database, and rules", "why_tests_cant": "An envelope is written by whoever wants the payment to be accepted, and all envelopes there can be are to be excluded; tests read envelopes that somebody has made correctly.", "anchors": ["src/gigamonkey/pay/SPV_envelope.cpp: read_SPV_proof, read_confirmation, read_SPV_node", "src/gigamonkey/SPV.cpp: proof::validate, check_sub_proof"]}
{"id": "C183", "title": "Reading takes no more memory than a multiple of what is read", "statement": "Whatever bytes are given to the readers of transactions, blocks, extended transactions, BEEFs and Merkle proofs, the memory asked for is at most a small multiple of their length, and bytes that are not such a thing give an empty or invalid value and no exception.", "quantifier": "every byte string, of any length, and every amount of memory there is", "why_tests_cant": "The number of bytes asked for is announced by whoever sends the message and can be anything below 2^64; a test that reads a few malformed messages does not see what the other ones ask for.", "anchors": ["src/gigamonkey/p2p/var_int.cpp: var_string::read", "src/gigamonkey/timechain.cpp: transaction::transaction, block::block, block::transactions", "src/gigamonkey/include/gigamonkey/pay/BEEF.hpp: BEEF::BEEF", "src/gigamonkey/merkle/serialize.cpp: read_binary"]}
{"id": "C184", "title": "Making a proof takes work in proportion to the transactions it is made of", "statement": "Making a proof for a payment asks the database for each transaction that the payment depends on at most a fixed number of times, whatever spends it.", "quantifier": "every database, every payment, every number and arrangement of transactions without confirmation", "why_tests_cant": "The shape of the transactions that wait for confirmation is chosen by whoever sent them; tests make a proof for two or three of them, where asking again makes no difference.", "anchors": ["src/gigamonkey/SPV.cpp: generate_proof, generate_proof_node", "src/gigamonkey/include/gigamonkey/SPV.hpp: database, generate_proof"]}
{"id": "C185", "title": "Validating a proof takes work in proportion to the transactions it holds", "statement": "Validating a payment with its proof looks at no more inputs, and so runs no more scripts and checks no more Merkle paths, than there are inputs in the payment and the proof; and if each transaction of the proof is filed under its id, each input is looked at at most once for the proof and once for the payment, however many others spend from the transaction.", "quantifier": "every payment, every proof of any shape and depth, every outcome of every script", "why_tests_cant": "A proof comes from whoever pays; the number of ways through it can be exponential in its size, and tests validate proofs with one or two ways.", "anchors": ["src/gigamonkey/SPV.cpp: proof_validate, check_sub_proof", "src/gigamonkey/include/gigamonkey/SPV.hpp: proof::validate"]}
{"id": "C186", "title": "An SPV envelope is no larger than the transactions of the proof", "statement": "The SPV envelope made from a proof holds each transaction of the proof once, so that its size is in proportion to the number of transactions.", "quantifier": "every proof of any shape and depth", "why_tests_cant": "A transaction that is spent by two others is written twice, and all that it rests on; whether that matters depends on the shape of the proof, and tests write proofs of one or two transactions.", "anchors": ["src/gigamonkey/pay/SPV_envelope.cpp: to_SPV_envelope, SPV_envelope::SPV_envelope", "src/gigamonkey/include/gigamonkey/pay/SPV_envelope.hpp: SPV_envelope"]}
{"id": "C187", "title": "A payment to a hash is spent by whoever knows what has the hash", "statement": "The script that pay_to_hash makes for a digest is recognised and gives the digest back, and what pay_to_hash::redeem makes of a byte string spends it exactly if the string has that digest.", "quantifier": "every digest, every byte string, every script that only pushes, and all rules", "why_tests_cant": "The script must refuse every string but those with the digest and accept those; that depends on what is left on the stack by every unlocking script under every set of rules, and there is no test of this header at all.", "anchors": ["src/gigamonkey/include/gigamonkey/script/pattern/pay_to_hash.hpp: pay_to_hash", "src/gigamonkey/script/machine.cpp: machine::step"]}
{"id": "C188", "title": "Validating a proof takes a bounded piece of the stack", "statement": "However long the chains of transactions in a proof are, validating it nests calls no deeper than some fixed number, so that no proof from a stranger can make the thread run out of its stack.", "quantifier": "every proof of any shape and depth, every payment and all rules", "why_tests_cant": "Tests have proofs of one or two transactions; how deep the calls are nested depends on the longest chain, which has no limit.", "anchors": ["src/gigamonkey/SPV.cpp: check_sub_proof, proof_validate, proof::validate"]}
{"id": "C189", "title": "The answer for a payment does not depend on order or on what is not spent", "statement": "Whether a payment is accepted does not depend on the order of its transactions, on the order in which its proof files transactions, nor on what the proof has besides the transactions that are spent: removing all of that, at every depth, leaves the answer as it was.", "quantifier": "every payment and every order of it, proofs of any depth and width, all rules", "why_tests_cant": "Tests have one proof for one payment; here every permutation and every superfluous entry at every depth counts.", "anchors": ["src/gigamonkey/SPV.cpp: check_sub_proof, proof_validate, proof::validate"]}
{"id": "C190", "title": "An incomplete transaction can be copied, asked and thrown away in any order", "statement": "A program that makes, copies, asks for digests and destroys incomplete transactions in any order, without touching one that is not there, is defined, is given the digests of the values by every one of them, and leaves nothing in memory when all are destroyed.", "quantifier": "every history of constructions, copies, questions and destructions of any number of objects, every transaction and hash function", "why_tests_cant": "Tests make one object and let it go out of scope; which orders of copies, questions and destructions are harmful cannot be seen from a few of them, and a memory error often goes unnoticed.", "anchors": ["src/gigamonkey/include/gigamonkey/incomplete.hpp: incomplete::transaction, cached, ~cached", "src/gigamonkey/include/gigamonkey/sighash.hpp: hash_prevouts, hash_sequence, hash_outputs"]}
{"id": "C191", "title": "Evaluating scripts leaves nothing in memory", "statement": "When an evaluation of two scripts has returned, every document that was made to check signatures against has been given back.", "quantifier": "every pair of scripts, every configuration of flags and limits, every transaction and way to check signatures, every way an evaluation can end", "why_tests_cant": "A leak changes no answer, so no test of answers sees it; whether every path through the operations gives back what it took is a statement about all scripts and all failures.", "anchors": ["src/gigamonkey/script/machine.cpp: machine::step, add_script_code, OP_CHECKSIG, OP_CHECKMULTISIG", "src/gigamonkey/script/interpreter.cpp: interpreter::run"]}
{"id": "C192", "title": "A copy of an interpreter is an interpreter of its own", "statement": "A program that makes, copies, steps, looks at and destroys interpreters in any order, without touching one that is not there, sees in every one of them what it would see if each were a value of its own: a step of one changes no other, and one can be used as long as it exists itself.", "quantifier": "every sequence of constructions, copies, steps, observations and destructions of any number of interpreters, every pair of scripts, every configuration and document", "why_tests_cant": "Tests step one interpreter that nobody copies; what copies share shows only in particular orders of copying, stepping and destroying, and the use of memory after it was freed often goes unnoticed.", "anchors": ["src/gigamonkey/include/gigamonkey/script/interpreter.hpp: interpreter", "src/gigamonkey/include/gigamonkey/script/machine.hpp: machine::Stack", "src/gigamonkey/include/gigamonkey/script/counter.hpp: program_counter", "src/gigamonkey/script/interpreter.cpp: interpreter::step"]}
{"id": "C193", "title": "Reading an SPV envelope leaves nothing in memory but the envelope", "statement": "When the constructor that reads an SPV envelope from JSON has returned, the nodes that are in memory are those that belong to the envelope; if it could not be read, there are none.", "quantifier": "every JSON value, every depth, every format of the responses of merchants", "why_tests_cant": "A leak changes nothing in what is read; whether each of the many places where reading is given up gives back what has been made needs all values, not some.", "anchors": ["src/gigamonkey/pay/SPV_envelope.cpp: SPV_envelope::SPV_envelope, read_JSON, read_txid", "src/gigamonkey/include/gigamonkey/pay/SPV_envelope.hpp: SPV_envelope::node"]}
{"id": "C194", "title": "What a mining server says of an error tells which error it is", "statement": "Each error code of Stratum has a message that no other code has; a refusal made of a code reaches the client as that code with that message; and the code that a client reads from a response is the number that is in it.", "quantifier": "every code of 32 bits, named or not, every pair of codes, every id, result, number and text in a response", "why_tests_cant": "There are over four thousand million codes and more pairs; a test of some of them cannot show that no two share a message or are read as one.", "anchors": ["src/gigamonkey/stratum/error.cpp: error_message_from_code, error::error", "src/gigamonkey/include/gigamonkey/stratum/error.hpp: error_code, error"]}
{"id": "C195", "title": "The number of signatures checked is bounded by the length of the scripts and by the limit of operations", "statement": "Whatever the scripts, the transaction and the outcome, a script is decided with no more checks of signatures than the limit of operations, no more than three for each instruction, and no more than three times the length of the locking script, six times that of the unlocking script, and six; so a script cannot make a verifier check more signatures than its length pays for.", "quantifier": "every pair of scripts under 2^31 bytes, every transaction, every set of rules and limits, every number of steps", "why_tests_cant": "A test measures the scripts it is given; the worst script is one nobody has written yet, and combines copies of the stack with checks of many keys.", "anchors": ["src/gigamonkey/script/machine.cpp: machine::step", "src/gigamonkey/script/interpreter.cpp: interpreter::run", "src/gigamonkey/include/gigamonkey/script.hpp: redemption_document"]}
{"id": "C196", "title": "A payment locked until a time is not spent before it, and from then on by its owner", "statement": "An output whose script begins with a number and CHECKLOCKTIMEVERIFY is spent only by an input that is not final, in a transaction whose lock time is of the same kind and has reached the number; with CHECKSEQUENCEVERIFY, only by an input whose sequence number has reached it. If the rest of the script pays to an address, spending also takes a signature of the whole script by a key with that hash. Once the time has come the signature alone decides.", "quantifier": "every unlocking script, every rest of the locking script, every number, every transaction and input, every key and signature, every set of rules", "why_tests_cant": "Whoever wants the money early chooses the unlocking script and the transaction; a test tries a few of each, and says nothing about the others.", "anchors": ["src/gigamonkey/script/machine.cpp: machine::step", "src/gigamonkey/script.cpp: redemption_document::check_locktime, redemption_document::check_sequence", "src/gigamonkey/script/interpreter.cpp: interpreter::run"]}
{"id": "C197", "title": "What is hashed for signatures grows with the transaction, not with its square", "statement": "However many signatures of a transaction are made or checked, and for whichever of its inputs, the outpoints, the sequence numbers and the outputs of the transaction are hashed once at most; beside that, what is hashed for a signature is a fixed number of bytes and the script that it signs for.", "quantifier": "every transaction, every sequence of signatures for its inputs, every amount, script and sighash directive", "why_tests_cant": "The work is a sum over all signatures, and how it grows shows only in transactions larger than any in a test; whoever wants to slow down a verifier chooses the transaction.", "anchors": ["src/gigamonkey/signature.cpp: signature::hash", "src/gigamonkey/sighash.cpp: Amaury::write, reconstruct", "src/gigamonkey/include/gigamonkey/sighash.hpp: hash_prevouts, hash_sequence, hash_outputs, write_original"]}
{"id": "C198", "title": "A payment that offers a choice is spent only in one of the ways it offers", "statement": "When the script of an output begins with a condition, so that it can be spent in one way or in another, as contracts of hash or time can, evaluation lets nobody spend it who does not meet all that the way they have chosen asks for.", "quantifier": "every locking script that begins with IF or NOTIF, every unlocking script of pushes, every document, every set of rules", "why_tests_cant": "Whoever wants the money chooses the unlocking script and the choice; a test tries the unlocking scripts its author thought of.", "anchors": ["src/gigamonkey/script/machine.cpp: machine::step, OP_IF, OP_NOTIF, OP_ELSE, OP_ENDIF", "src/gigamonkey/script/instruction.cpp: valid_program, full", "src/gigamonkey/script/interpreter.cpp: evaluate"]}
{"id": "C199", "title": "A script that ends by asking for a signature is not satisfied without it", "statement": "When the script of an output ends with a public key and CHECKSIG, then whatever it does before that, evaluation lets nobody spend it without a signature that this key accepts for this script.", "quantifier": "every locking script that ends with a key and CHECKSIG, every unlocking script of pushes, every document, every set of rules", "why_tests_cant": "What comes before the signature check is arbitrary, and so is what is pushed; no collection of scripts shows that none of them ends early with success.", "anchors": ["src/gigamonkey/script/machine.cpp: machine::step, OP_CHECKSIG, OP_CHECKSIGVERIFY, OP_RETURN, OP_IF", "src/gigamonkey/script/interpreter.cpp: evaluate", "src/gigamonkey/script/counter.cpp: to_last_code_separator"]}
{"id": "C200", "title": "What a script asks for first is asked of everyone who spends", "statement": "When the script of an output begins by comparing the hash of an argument with a given value, or by checking a signature of a given key, each in the form that fails at once, then whatever follows, whoever spends the output with a script of pushes has pushed last what has the hash, or a signature that the key accepts for the whole script.", "quantifier": "every locking script that begins with a hash and EQUALVERIFY for each of the five hash functions, or with a key and CHECKSIGVERIFY, whatever follows; every unlocking script of pushes, every document, every set of rules", "why_tests_cant": "What follows is arbitrary, and several instructions can end a script early with success; a test tries a few scripts.", "anchors": ["src/gigamonkey/script/machine.cpp: machine::step, OP_HASH160, OP_SHA256, OP_EQUALVERIFY, OP_CHECKSIGVERIFY", "src/gigamonkey/script/interpreter.cpp: evaluate", "src/gigamonkey/script/instruction.cpp: full, pre_verify"]}
