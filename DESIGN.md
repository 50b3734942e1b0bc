# Design of the formal model

The subject is the C++ library in /repo (Gigamonkey).  Nothing there is built or run; the model is written by reading the
source.  Every definition in `lean/Verif` that models code cites the file and lines it was read from, and says where it
simplifies.

## Trusted base

**Proof checking.**  Lean 4.33.0's kernel.  `#print axioms` on every theorem named in `MANIFEST.json` shows at most `propext`,
`Classical.choice` and `Quot.sound`.  No axiom is added; there is no `sorry`, no `native_decide` and no `bv_decide`.  Finite tables
(opcodes, words, hex digits) are decided with `decide +kernel`, that is by the kernel, and lifted to all values by lemmas such as
`forall_byte`.

**The reading of the C++ text.**  The only tie between model and code is the citation on each definition.  Templates, inlining and
virtual dispatch are resolved by hand.

**The `data` library**, which is not in the repository.  It is given its ordinary meaning:

* readers and writers: a read, or a skip, past the end throws `data::end_of_stream`; a write past the end of a fixed buffer likewise;
* `Z_bytes` integers are exact, shifting right is division rounding down, division truncates; a 256-bit number loses the high
  bits when it is shifted left; a number written as hex has its bytes in memory order;
* lists: `<<` and `<<=` append, `>>` and `>>=` prepend; the first or the rest of an empty list, and an index past the end, are undefined;
  an index of -1 is the last element of a `cross`;
* `ordst` keeps its elements ascending and keeps equal ones; `set` is ordered by `<=>` and keeps one of equal elements;
  `map::operator []` throws for a missing key; `map::insert` with a key that is there keeps either value where the theorems do not
  say which;
* `maybe` and `optional`: reading an empty one is undefined, `std::get` on another alternative throws;
* base 58, base 64 and hex: base 58 digits have their ordinary meaning and the empty text stands for no bytes; base 64 is a parameter
  that reads back what it writes; hex is two lower-case digits per byte, is read in either case, and fails for an odd number of digits; a
  256-bit digest read from text that is not 64 digits is zero;
* JSON (nlohmann): an object has one value per key; an array or object of another type than asked for throws; a brace
  initialiser of pairs of text and value is an object;
* `valid ()` of a digest or timestamp says that it is not zero; of a map or set, that its elements are valid.

**Other libraries.**  `gmtime`, `mktime`, `strftime` and `strptime` as in glibc; boost's `split` and `trim`; `ctre::match` matches the whole
text; nothing is said about `GetStrongRandBytes`.  A coroutine can be overtaken by another at each `co_await` and nowhere else.

**Cryptography** is a parameter of the model: SHA-256, RIPEMD-160, HMAC, PBKDF2, and libsecp256k1 as a group of the published order
with the documented behaviour of each call, including the abort on an illegal argument.  Signing is a parameter whose signatures verify,
are in DER form and have a low S.  Where a theorem needs that there is no collision, this is a hypothesis about the strings it names and
not about the hash function.  The strength of the primitives is outside the model.

**Floating point** is IEEE 754 `double` with rounding to the nearest number of 53 binary digits, ties to even (Core/Double); there are
no infinities and no bounds of the exponent in it, and where a value could be infinite it is an outcome of its own.

**Not modelled.**  Hash power and times as `double`; time and randomness; memory exhaustion;
threads other than the coroutines of `remote`; text written for people to read.

## Conventions

* A byte is `UInt8`, a byte string is `Bytes = List UInt8`; text is a list of characters, one per byte.
* Fixed-width machine integers are `BitVec n`, or `Nat` / `Int` with an explicit range where it is a hypothesis.
* A reader is a function `Bytes → Except RErr (α × Bytes)`; the errors are the exceptions that can be thrown.
* Exceptions and undefined behaviour are distinct outcomes of the model, each with a constructor of its own where it can be reached.
* Loops become structural recursion.  A loop that may not end takes fuel, and that it never ends is stated as: no fuel is enough.
* A property that is false of the code is kept in full in `properties.jsonl`.  Its negation is proved with a witness, in a theorem
  whose name contains `false`, and what does hold is proved in a theorem whose name ends in `_partial` or that gives the exact conditions.

## Layout

`Verif/Core`, `Verif/Serial`: bytes, readers, the wire format.  `Verif/<Area>/<Part>.lean`: definitions with citations.
`<Part>Lemmas.lean`: helper lemmas.  `<Part>Props.lean`: specification (in a section or namespace `Spec`), property theorems, and an example
meeting the hypotheses of each.  `seeded/LOG.jsonl`: wrong programs the theorems were tried against.

How to read `seeded/LOG.jsonl`.  Each line is one edit of a definition in a scratch copy without the examples.

* `errors_in` is what was observed: the declarations whose proofs no longer went through.  The first two batches (m001 to m120) record one build;
  later ones replace each failed proof by `sorry` in the scratch copy and build again, so that they reach the proofs behind it.
* `failed` is worked out from it: the theorems of `MANIFEST.json` that are in `errors_in` or rest on a lemma in it.  It uses the
  dependencies of a recent state of the proofs, so it can name theorems that were written after the edit was tried.  Names of theorems that were later renamed
  to end in `_partial` are given as they are now.
* That a proof no longer goes through does not show that its statement became false.  Some edits break the proof and not the claim.
* `claim_named` says whether the broken claim was written down before the run.  For 562 edits it was.  For the others, most of them made by a script, it was
  read off the theorems that failed, so for those the log does not show that the expected theorem was the one that failed.
* `result` is `killed` if some proof failed, `survived` if all went through, and `does not compile` if Lean rejected the edited definition, which tests nothing.
  A survivor has either the theorems added or tightened because of it, or a reason why it breaks no claim.
* Tightened theorems were not always run against their edit again.

## Plan and state per property

The plan was written before the proofs; the last columns say where the theorems are and what became of it.  The full statements are in `properties.jsonl`, the names of the theorems and what is missing from each in `MANIFEST.json`.

| id | property | what is modelled and how it is proved | theorems in | state |
|----|----|----|----|----|
| C01 | Variable-length integers round-trip | `var_int` write, read and size: case split on the four width classes, little-endian lemma | Serial/Props | proved |
| C02 | Variable-length integer encoding is shortest and unambiguous | the same: the length of any accepted encoding is bounded below by its class; prefix freedom from the round trip | Serial/Props | proved |
| C03 | Block headers are a bijection with 80-byte strings | header write and read: fixed-width field lemmas, both directions | Serial/Props | proved |
| C04 | Transactions round-trip through the wire format | transaction writer and reader: generic round trip for codecs and counted lists | Serial/Props | proved |
| C05 | Announced transaction and block sizes are exact | the `serialized_size` functions: induction on lists | Serial/Props | proved |
| C06 | Truncated transactions are rejected | reader on a strict prefix: each reader used fails on every strict prefix of what it consumes | Chain/Props, Serial/Props | proved |
| C07 | Transaction serialisation is injective | writer: from C04 with an arbitrary suffix | Serial/Props | proved |
| C08 | Blocks round-trip and expose their transactions | block writer and reader: codec lemmas | Serial/Props | proved |
| C09 | Extended-format transactions round-trip and agree with the plain transaction | extended writer and reader: codec lemmas; the marker clause is false (six bytes are skipped unread) | Pay/ExtendedProps | partial |
| C10 | Pushing data produces exactly that data | `instruction::push`, `read`: case split on the class of the length | Script/InstrProps | proved |
| C11 | Instructions built by the library count as minimal pushes | `is_minimal_push`: false at 256 and 65536, theorem for all other lengths | Script/InstrProps | partial |
| C12 | Announced push sizes are exact | `min_push_size`: false at the class boundaries, theorem for the rest | Script/InstrProps | partial |
| C13 | Compile and decompile are inverse | `compile`, `decompile`: induction on the program and on the bytes | Script/InstrProps | proved |
| C14 | The instruction reader of the running machine agrees with the decompiler | `program_counter`: simulation between two parsers | Script/InstrProps | partial |
| C15 | Script execution always terminates | machine and interpreter loop: the counter strictly increases | Script/MachineProps | proved |
| C16 | Pre-genesis stack limits always hold | limited stack before genesis: invariant over `step` | Script/MachineProps | proved |
| C17 | Post-genesis stack memory accounting is exact and bounded | limited stack after genesis: invariant over `step` | Script/MachineProps | proved |
| C18 | The operation limit is enforced | operation count: invariant over `step` | Script/MachineProps | proved |
| C19 | Malformed scripts fail cleanly: no undefined behaviour during execution | all opcodes with an outcome for undefined behaviour: case analysis over opcodes | Script/MachineProps | partial |
| C20 | Conditionals select exactly one branch | IF, ELSE, ENDIF: false (a skipped branch is never left); theorem for the true branch and exactly what happens to the other | Script/CondProps | partial |
| C21 | A verifying opcode that succeeds lets the script continue | verifying opcodes: false for the signature checks (success ends the script); theorem for the others | Script/VerifyProps | partial |
| C22 | Lock-time opcodes are enforced exactly when enabled | CLTV and CSV: false (flag tests inverted); what they do for either setting | Script/VerifyProps | partial |
| C23 | Stack opcodes do what their names say | stack opcodes: a theorem per opcode on arbitrary stacks | Script/StackProps | partial |
| C24 | Execution success is decided only by an empty error and a true top element | result of a run: characterisation of the ways to halt | Script/OutcomeProps, Script/PrecheckProps | partial |
| C25 | Bit shift opcodes shift the bit string and keep the length | shifts: specification on the bit string | Script/ShiftProps | partial |
| C26 | CAT and SPLIT are inverse | CAT, SPLIT: list lemmas | Script/ShiftProps | partial |
| C27 | Cutting a transaction down to what a signature covers: output flags | sighash writers: non-interference between two transactions | Sig/Props | proved |
| C28 | A signature with all flags off commits to the whole transaction | sighash writer: the message is read back (injectivity) | Sig/Props | proved |
| C29 | Signing with SINGLE and no matching output is safe | sighash SINGLE: outcome for an access outside the outputs | Sig/Props | partial |
| C30 | Every leaf's Merkle proof checks against the root | Merkle tree, root and proof: induction on levels | Merkle/Props | partial |
| C31 | A Merkle proof identifies the leaf | `derive_root`: induction on the length of the path | Merkle/Props | proved |
| C32 | The Merkle server answers every index with a valid proof | Merkle server: index arithmetic in the flat layout | Merkle/Props | partial |
| C33 | BUMP paths round-trip through binary | BUMP codec: codec lemmas | Merkle/BumpCodec | partial |
| C34 | A BUMP made from a Merkle branch has that branch's root | BUMP from a branch: induction on the branch | Merkle/BumpProps | partial |
| C35 | TSC Merkle proofs round-trip | TSC proofs: codec lemmas; false for an included transaction | Merkle/Tsc | partial |
| C36 | Checksummed strings are recovered exactly and corruption is refused | checksum: list lemmas, hash a parameter | Text/CheckProps | proved |
| C37 | Addresses round-trip and are unambiguous | addresses: base 58 check round trip; injectivity is false for short payloads | Text/CheckProps | partial |
| C38 | WIF keys round-trip and malformed keys are refused | WIF: base 58 check round trip | Text/CheckProps | proved |
| C39 | Signature shape checks never read outside the signature | DER checks with bounds-checked access: every access is guarded | Keys/Der | proved |
| C40 | Key arithmetic is a homomorphism | arithmetic on keys over an abstract group: false for three operations | Keys/SecpProps | partial |
| C41 | Extended keys round-trip | HD keys, read and write: fixed-width lemmas | Keys/HDProps | proved |
| C42 | Public derivation matches private derivation | HD derivation over an abstract group: false at the endianness corner, theorem away from it | Keys/HDProps | partial |
| C43 | Derivation paths parse to the written indices | `read_path` with fuel: false (does not end on other characters), theorem on canonical text | Keys/HDProps | partial |
| C44 | Generated seed phrases are valid, and only well-formed phrases are | BIP 39: bit-level lemma; refusal is false | Text/Bip39Props | partial |
| C45 | Compact targets expand correctly and compacting loses only low digits | compact target: arithmetic; small numbers meet an uninitialised variable | Work/Props | partial |
| C46 | Version-rolling bits round-trip | ASICBoost: bit-vector identities by bitwise extensionality | Work/Props | proved |
| C47 | Solutions found by the solver satisfy the puzzle | solver loop: loop invariant | Work/Props | partial |
| C48 | The work string of a proof depends only on permitted bits of the miner's choice | proof string: bitwise extensionality | Work/Props | proved |
| C49 | Boost scripts round-trip | Boost scripts: round trip instruction by instruction | Boost/RoundProps | partial |
| C50 | A Boost solution's input script matches its puzzle's version-rolling mode | input script of a Boost proof: false without version rolling | Boost/SizeProps | partial |
| C51 | The expected size of a designed transaction bounds the final size | `expected_size`: false for many outputs, exact difference | Pay/ExtendedProps | partial |
| C52 | Fees are conserved | fees: sums of lists with overflow as an outcome | Pay/ExtendedProps | partial |
| C53 | The SPV database finds what was inserted | SPV database: invariant over histories of operations | SPV/DatabaseProps | partial |
| C54 | A transaction reported as confirmed is in a header currently on the chain | SPV database: invariant over histories; false after a removal | SPV/ConfirmProps | partial |
| C55 | A validated SPV payment is backed by real transactions | SPV validation: induction on the proof; false where ids are not compared | SPV/ProofProps | partial |
| C56 | BEEF round-trips through binary | BEEF codec: codec lemmas | Pay/BeefProps | partial |
| C57 | A validated BEEF has every Merkle root confirmed | BEEF validation: exact characterisation; false for a zero root | Pay/BeefProps | partial |
| C58 | An SPV envelope is validated against the header source | SPV envelope: exact characterisation; false (no database is passed on) | Pay/EnvelopeProps | partial |
| C59 | Stratum work notifications round-trip | `notify` as JSON: per field, exact set that survives | Stratum/MiningProps | partial |
| C60 | Stratum shares round-trip | `submit` as JSON: per field, exact set that survives | Stratum/MiningProps | partial |
| C61 | Negotiated version mask is within both parties' masks | version mask: bitwise extensionality; invariant over histories; text reader false | Stratum/SessionProps | partial |
| C62 | Only authorised clients become authorised | authorisation: false (test inverted) | Stratum/SessionProps | partial |
| C63 | Difficulty and extra nonce changes follow the session rules | session state: invariant over operations | Stratum/SessionProps | partial |
| C64 | Method names and messages round-trip | methods and messages: finite table lifted to all texts; false for notifications | Stratum/MessageProps | partial |
| C65 | BIP-276 typed data round-trips and malformed text is refused | typed data: grammar of the text, exact sets read and undefined | Text/Bip276Props | partial |
| C66 | Random key generation is supplied with entropy | entropy source: false; every byte of the first read is zero | Keys/RandomProps | partial |
| C67 | JSON envelopes are read back as written | JSON envelope: exact for binary payloads; false for text | Pay/JsonEnvelopeProps | partial |
| C68 | Standard script patterns recognise exactly their scripts | patterns: exact set recognised | Script/PatternProps | partial |
| C69 | Pattern matching terminates and reports data from inside the script | scan of a pattern: termination by the size of what is left; false for repetitions of nothing | Script/PatternProps | partial |
| C70 | Calendar fields of timestamps are correct | timestamps: civil-date arithmetic; `day` and late dates false | Text/TimeProps | partial |
| C71 | Completing an incomplete transaction fills in exactly the unlocking scripts | incomplete transactions: list lemmas | Sig/Props | proved |
| C72 | Incrementing key sources never repeat | key source: false via C40 | Keys/SecpProps | partial |
| C73 | Slicing one input or output out of a serialised transaction | slicing readers: simulation with the full reader; uninitialised read in `output` | Serial/Props | partial |
| C74 | Stepping and running agree | `step` and `run`: induction on the number of steps | Script/MachineProps | proved |
| C75 | LEFT, RIGHT and SUBSTR cut out the part they name | LEFT, RIGHT, SUBSTR: list lemmas; false for negative zero | Script/MachineProps, Script/ShiftProps | partial |
| C76 | The signature check demands exactly what the flags demand | `verify_signature` of script.cpp: exact conditions per flag, the curve a parameter | Sig/Verify | partial |
| C77 | The strict signature check accepts exactly BIP-66 signatures | strict DER check: both directions against a grammar of BIP 66 | Keys/Der | partial |
| C78 | Standard payments are redeemed exactly by their key | evaluation of standard scripts: symbolic execution of the machine for all keys and signatures | Script/PayProps, Sig/Spend | proved |
| C79 | The locking script decides | `setup_interpreter`, `full`: the state after an unlocking script that only pushes | Script/LockProps | partial |
| C80 | Every branch extracted from a BUMP leads to its root | BUMP `paths` and `root`: simulation level by level; false for nodes given twice | Merkle/BumpProps | partial |
| C81 | Arithmetic opcodes compute with exact integers | arithmetic opcodes: value of script numbers | Script/ArithProps, Script/VerifyProps | proved |
| C82 | Byte string opcodes do what their names say | byte string opcodes: a theorem per opcode | Script/BytesProps | proved |
| C83 | NUM2BIN and BIN2NUM keep the value of a number | NUM2BIN, BIN2NUM: value of script numbers | Script/BytesProps | partial |
| C84 | A mistyped base 58 check string is recovered | `check::recover`: the candidates tried and which edits they undo | Text/CheckProps | proved |
| C85 | A signature check sees the code after the last separator | script code of a signature check: decompile after the last separator | Script/SepProps | partial |
| C86 | A proof of work is rebuilt from its work string and parts | proof from its work string: field by field | Work/Props | partial |
| C87 | The hash reported for a transaction or header is that of its contents | cached hashes: invariant over histories of reads and changes | Chain/Props | partial |
| C88 | A valid transaction is well formed | `transaction::valid`: exact characterisation | Chain/Props | partial |
| C89 | A valid block has work on exactly its transactions | `block::valid`: exact characterisation | Chain/Props | partial |
| C90 | CHECKMULTISIG accepts exactly signatures that match keys in order | CHECKMULTISIG: the loop against order-preserving matching | Script/MultisigProps | partial |
| C91 | A sequence matches its parts one after another | pattern sequences: fold of the parts | Script/PatternProps | partial |
| C92 | A repetition keeps to its bounds | pattern repetition: count of rounds | Script/PatternProps | partial |
| C93 | Boost scripts have the sizes that are announced | announced sizes of Boost scripts: sums of push sizes | Boost/SizeProps | partial |
| C94 | A Boost output is redeemed exactly by proof of work | Boost output script: symbolic execution of the machine against the proof of work | Boost/AnyProps, Boost/ExecProps | partial |
| C95 | Fee rates are compared as fractions | fee rates: cross multiplication with overflow as an outcome | Pay/ExtendedProps | partial |
| C96 | A valid extended transaction creates no value | `extended::transaction::valid`: sums of lists | Pay/ExtendedProps | partial |
| C97 | Redeeming a design gives a transaction that spends its inputs | `redeem`: composition of C78 with the signing loop | Pay/RedeemProps | partial |
| C98 | The check of a set of Merkle paths accepts exactly the sets that lead to the root | `dual::valid`: the loop against the roots of all paths, and when it ends | Merkle/DualProps | partial |
| C99 | Adding two sets of Merkle paths of one block keeps every leaf | `dual` sums: invariant of the merging of paths | Merkle/SumProps | partial |
| C100 | Transactions without a Merkle proof are kept and listed | pending transactions of the database: invariant over histories | SPV/PendingProps | partial |
| C101 | Proofs made from a database are accepted | `generate_proof`: induction on the antecedents, validation by C55's model | SPV/GenerateProps | proved |
| C102 | Extended transactions carry the outputs spent | `extend`: list lemmas | SPV/GenerateProps | partial |
| C103 | The payment read from a BEEF is the one it holds, and it is only accepted if it is backed | BEEF to SPV proof: induction over the transactions read | Pay/BeefProof | partial |
| C104 | TSC proofs are validated exactly by the headers of the database | TSC proof validation against the database: exact characterisation | Pay/EnvelopeProps | proved |
| C105 | An SPV proof is the same after going through an SPV envelope | SPV envelope from and to SPV proof: induction on the tree | Pay/EnvelopeProps | partial |
| C106 | An SPV envelope is the same after going through JSON | SPV envelope from and to JSON: induction on the tree | Pay/EnvelopeProps | partial |
| C107 | Redeeming a Boost puzzle spends every output exactly if the solution is a proof of work | Boost `puzzle::redeem`: composition of C94 with the signing loop | Boost/RedeemProps | partial |
| C108 | A Boost candidate holds exactly the outputs given, once each, and all have its script | Boost candidates: set insertion | Boost/RedeemProps | partial |
| C109 | Responses find the requests they answer | requests and responses of a remote: invariant over all interleavings at `co_await` | Stratum/RemoteProps | partial |
| C110 | Logins, subscriptions and notifications' parameters round-trip | parameters of subscriptions and small notifications as JSON: per type | Stratum/ParamsProps | partial |
| C111 | Configure requests and answers are read as written | requests, results and their maps keyed by dotted text: what reading yields, by induction over the entries, in any order | Stratum/ConfigureProps | partial |
| C112 | A client session stands where the server has put it | the client's end of a session as a state machine over sends and received messages: invariants over all histories | Stratum/ClientSessionProps | partial |
| C113 | A wallet's addresses follow from its account's public key | accounts, paths and sources on top of the derivation of C42; by induction over what a source has delivered | Keys/Bip44Props | partial |
| C114 | A Stratum share stands for one block header, and is accepted exactly if that header is below the target | `job`, `solved`, `Stratum::proof` and the conversions between notifications, puzzles and proofs; the header is specified by a fold over the path and by single bits of the version, and both ways of judging are shown to be comparisons of its hash | Stratum/JobProps | partial |
| C115 | Merkle paths of one block are merged without losing the root or a transaction | `addBump` with its loops and the constructor from a map are modelled; a BUMP of a block is specified by the nodes of the Merkle tree of C30; combining is proved right for aligned levels, removal is proved to drop exactly what can be computed, and both are put together by induction over the levels; wrong orders, heights and lengths by counterexample | Merkle/BumpSumProps | partial |
| C116 | A payment written as BEEF is read back as the same payment | the writer of BEEF (`Writer`, `writeNode`, `writeMap`, `Beef.ofProof`). An invariant on what has been written, what is being written and which BUMP stands for which root, by induction over the proof tree; the BUMPs by the sums of C115; reading back by the lemmas of C103 and by showing that what is read is seen by the check as what was written. | Pay/BeefWriteProps | partial |
| C117 | The JSON of a BUMP stands for the BUMP | `Verif/Pay/BumpJson.lean` models the JSON of BUMPs (BUMP.cpp 83-138, 184-205) with outcomes for exceptions, undefined behaviour and numbers that are not integers; the theorems are by induction over levels and nodes, with what can be written (`BumpStandard`) given apart from the model. What the data library makes of text that is not 64 digits is as in C105 (`readReverseHex`). | Pay/BumpJsonProps | partial |
| C118 | The JSON of a BEEF determines the BEEF | `Beef.toJson` (BEEF.cpp 223-258) in the same file; each part of it is shown to determine what it was made from. | Pay/BumpJsonProps | partial |
| C119 | A merchant API fee quote read from JSON says exactly what the JSON says | `Pay/Mapi.lean` models the fee quotes and their JSON; an object that says what a quote is, `Spec.SaysQuote`, is stated entry by entry, and reading is shown equivalent to it, by induction over the list of fees. | Pay/MapiProps | partial |
| C120 | A merchant API answer about a transaction is read as what the server said | `Pay/Mapi.lean` models the statuses and answers with the entries that are asked for and those that are read, undefined where an entry of a constant object is missing; reading is shown equivalent to `Spec.SaysStatus`. | Pay/MapiProps | partial |
| C121 | A merchant API client gives only signed answers, and gives what was signed | `client::call` is modelled with the JSON parser, SHA2-256 and the signature scheme as parameters and shown equivalent to its conditions by C67; the constructor of a response is the one that the code has, which assigns to a copy. | Pay/MapiProps | partial |
| C122 | What is sent to a merchant API determines the transactions and options that were meant | Requests are the query entries and the body; injectivity from lookups in the query, and from the JSON. | Pay/MapiProps | partial |
| C123 | An ARC response that is called valid has what can be asked of it | `Pay/Arc.lean` models each `valid` with the precedence that the operators have, and what is read with undefined behaviour where an entry or a body is missing; the JSON parser and `data::net::error::valid` are parameters; `response::error` is a function of the depth of calls. | Pay/ArcProps | partial |
| C124 | A transaction satisfies an ARC policy exactly if it is within the limits and pays the fee | `policy::satisfies` with the conversions of JSON numbers, the comparison of the fee as doubles, each conversion and the quotient rounded (Core/Double); shown equivalent to a specification of limits, and compared with what a policy means. | Pay/ArcProps | partial |
| C125 | What is sent to ARC determines the transactions and options that were meant | Requests are path, headers and body; injectivity of the headers by induction over keys that are distinct, of the bodies by reading back, and of lines by their separator. | Pay/ArcProps | proved |
| C126 | The JSON of a TSC proof stands for the proof | Tsc: validJson, toJson, readJson over the type Json; which JSON is valid is compared with a list of the entries and their forms, then round trip and validity of what is read, by cases on what the target is. | Merkle/TscJsonProps | partial |
| C127 | What is asked of the JSON of a TSC proof is what is found when it is read | Tsc: each function on JSON as in the header; compared with the fields of the proof that readJson gives. | Merkle/TscJsonProps | partial |
| C128 | A tree is reported valid exactly if it is the Merkle tree of its leaves | Merkle: checkTree and MTree.valid, with an undefined outcome; compared with the trees of each height over a list of leaves, by induction on the height, and with make. | Merkle/TreeValidProps | partial |
| C129 | A Merkle server, its leaves and its tree stand for each other | Merkle: Server.toTree, Server.ofTree, Server.ofLeaves, make; by induction over the levels. | Merkle/TreeValidProps | partial |
| C130 | The limits of a script configuration are those of its rules, and are kept | Script: Config.make, Config.ofFlags with the numbers of consensus.h and policy.h; compared with a list of limits; scripts that show which limits are not kept are evaluated with the model of the interpreter. | Script/ConfigProps | partial |
| C131 | Minimal scripts with the same ASM text are the same script | Script: opName as a table, Instr.asm, asm; words without spaces can be told apart when joined, and minimal instructions have different words. | Script/AsmProps | proved |
| C132 | Transactions of SPV proofs are ordered as they can come | SPV: containsBranch by recursion over proofs, ordering; Inside is the inductive relation of being part of a proof at any depth; strictness by the size of the tree. | SPV/OrderProps | partial |
| C133 | The target made of a difficulty is the largest one that is hard enough | Work: the quotient as num / 2^scale; shrink is the loop; digitsOf; compared with the same notion of representable as C45. | Work/DifficultyProps, Work/HardnessProps | partial |
| C134 | Exactly which bytes are read as a header, a transaction, a block or an extended transaction | each reader is related to a grammar (value and bytes) by a small calculus for readers; the grammar is stated with the fields only | Serial/GrammarProps | partial |
| C135 | Exactly which bytes are a valid TSC proof, and what is asked of them | Tsc: the functions on slices as in the header, and the reader related to a grammar by the calculus of C134 | Merkle/TscBinaryProps | partial |
| C136 | Exactly which bytes are read as a BUMP and as a BEEF | BUMP and BEEF: the readers related to a grammar by the calculus of C134; insertion in order is the unique arrangement | Pay/BeefGrammar | partial |
| C137 | Parts taken from the bytes of an output or a block are those of what is made from them | the constructors from bytes and the functions on slices; the grammar of C134 | Chain/PartsProps | partial |
| C138 | Random numbers are below the bound, unbiased, and made of bits used once | GetRand over the list of draws; uniformity by counting the draws that lead to each number; FastRandomContext with its two buffers, and an invariant that the bits given out and the bits left in the buffers are pairwise apart | Keys/SvRandomProps | partial |
| C139 | Strong random bytes are made of every source or not at all | the sources of each system with every outcome, GetStrongRandBytes and the pool; the strings hashed differ in their last eight bytes, the counter; SHA-512 is a parameter | Keys/SvStrongProps | partial |
| C140 | A mining client works on what it was last told | the client session with what it was told beside it, one event at a time; a field is what the last message of its kind says, by induction on the events; the messages of the server session are given to the client session | Stratum/ToldProps | partial |
| C141 | A mining server knows the version that the client has said | the part of the server session that asks for the version, with requests that are sent in two steps as in C109; only versions are ever asked for, which is an invariant | Stratum/ToldProps | partial |
| C142 | Keys and signatures can be used by several threads | the member that is made when it is first used, as four steps of each thread, run in every order; invariants over the steps; a conflict is two neighbouring accesses of two threads one of which writes | Keys/ContextProps | partial |
| C143 | A signature can be made of its two numbers and taken apart again | writing and reading of two numbers as bytes; what is read is a grammar; the size that is written is the width of a number with a bit for the sign, by the last byte that is not zero | Keys/PointProps | partial |
| C144 | A node tells others what it was told to say of itself | writing of the version message of all three layouts as functions to bytes, and of endpoints and commands; injectivity by lengths known in advance, places by dropping what comes before | P2p/VersionProps | partial |
| C145 | Two SPV proofs that are equal are worth the same | equality as mutual recursion over trees with null pointers as undefined behaviour; it is equality after forgetting digests, by induction; that checking agrees by a relation between what transactions see of two maps | SPV/EqualProps | partial |
| C146 | A wallet is found again from its words and its passphrase or PIN | the seed as a function of a key derivation function that is a parameter; distinctness as equality for all derivation functions; PINs by the digits of a number; for Electrum SV that the word has no border | Keys/WalletProps | partial |
| C147 | Functions on texts and byte strings do what the opcodes do that they are named for | each function as written, with the loops of cat writing into a result; exact descriptions as iff; bits of bytes by testing all bytes in the kernel | Script/StringsProps | partial |
| C148 | Values that compare equal are the same, and orders agree with equality | each comparison as a function to an Ordering or a Boolean; sorting needs reflexivity, symmetry and transitivity, proved from orders of numbers; exact descriptions as iff, false ones by witnesses | Chain/CompareProps | partial |
| C149 | The forms of a public key stand for the same key | the curve is a parameter with coordinates and the three forms that libsecp256k1 parses; equality is shown to compare one canonical form, from which it is an equivalence | Keys/FormsProps | partial |
| C150 | Asked for a member, a Boost script gives the one that was put into it | The accessors over the reading of C49 (Boost/Ask). The theorems go through writing and reading; what the solution is worth is said of the header that a proof makes (Work). | Boost/AskProps | partial |
| C151 | The fee calculated for a size is the least amount that pays the rate | `double` as rounding of rationals to 53 binary digits, ties to even (Core/Double), proved to be a nearest number with 53 digits and to keep the order; the fee as the code computes it with every conversion and operation rounded, and compared with the least whole number that pays. | Pay/FeeForProps | partial |
| C152 | Difficulties and targets stand for each other | Core/Double again: the quotient of the unit and a target, rounded; back through the model of C133. Targets have at most 23 digits and so are at least one part in 2^23 apart, which is more than all the rounding. | Work/HardnessProps | partial |
| C153 | A mining server remembers its recent jobs and no others | `history::push` with the difference of times as doubles (exact, Core/Double); by induction what is kept is a suffix of all jobs, and for ordered times the ones within the time. | Stratum/HistoryProps | partial |
| C154 | A valid Boost puzzle can be redeemed, by inputs no longer than announced | `puzzle::valid` and `expected_size`; every input script made by `redeem` (C107) has a signature of at most 72 bytes, proved from low S and the range of its numbers, and so is within the size of C93; validity is connected to the hypotheses of C107. | Boost/AnnounceProps | partial |
| C155 | A header or transaction reports the hash that a loader has told it | `chain_loader::set_hash` added to the histories of C87; by induction on the history with what is known of the hash kept. | Chain/LoaderProps | partial |
| C156 | What is printed of instructions and script errors tells them apart | what is printed of an instruction and of a script error: a table of names inverted, and the brace that ends the name | Script/PrintProps | partial |
| C157 | A payment made from a wallet's keys and database is accepted by whoever receives it | redeeming, making a proof, checking it and writing and reading BEEF as modelled for C97, C101, C55 and C116, with the scripts evaluated under the two configurations that SPV.cpp names: the theorems of these are joined by invariants of what a proof made from a database holds | Pay/ReceivedProps | partial |
| C158 | What is sent to the addresses of an account is spent with its secret key | derivation, addresses and redeeming as modelled for C42, C113, C37 and C97, whose theorems are joined | Pay/WatchProps | partial |
| C159 | What is mined for a Boost puzzle redeems its outputs | the miner, redemption, interpreter and validation as modelled for C47, C107, C86 and C101, whose theorems are joined | Boost/MinedProps | partial |
| C160 | A payment is accepted exactly if each of its transactions is | check_sub_proof with the ids checked handed on, as modelled for C55, against a specification without memory | Pay/OnceProps | partial |
| C161 | A seed phrase is valid in the language of its words | the check over bytes with both word lists as they are in the code, against the check over letters of C44 | Text/Bip39LangProps | partial |
| C162 | An output that is called provably unspendable is never spent | provably_unspendable and the interpreter as modelled for C23, C24 and C79; the unlocking scripts are arbitrary before genesis | Chain/UnspendableProps | partial |
| C163 | An output that pays to the hash of a script is spent only with that script | `prepare`/`full` (interpreter.cpp 11-34, instruction.cpp 406-417) and the machine of C19-C24; the run of the assembled program is split at each instruction (run_inv, run_calm) with the invariant that no conditional is open; the negations are a proof for every hash and two evaluated witnesses | Script/ScriptHashProps | partial |
| C164 | Stricter rules accept nothing more | a simulation: `Refines x y` says that `y` does what `x` does unless that stops the script without success; proved for each primitive and each opcode (StricterLemmas), the preparation of the program and the check of signatures, then along the execution; success by C24 | Pay/StricterProps | partial |
| C165 | A transaction proved to be in a block is one of its transactions | `rootFrom` and `root` (merkle.cpp 15-23, 142-154) and the confirmations of SPV.cpp as in C55; rows of the tree counted from the top, paths as long as, shorter than and longer than the tree; negations for every hash function that meets the condition, and an evaluated witness | SPV/InBlockProps | partial |
| C166 | A Merkle root belongs to one list of transactions | the same, two trees compared row by row from the root down; repetitions are passed up | SPV/InBlockProps | partial |
| C167 | Only who has the key spends a payment to an address | evaluation that ends with success is run backwards: pushes leave exactly their values, then each instruction of the output script is inverted; the signature check is that of the document of the transaction (C76).  The thefts are constructed for every address, key and transaction | Pay/AddressProps, Sig/AddressProps | partial |
| C168 | Any owners of enough keys, and nobody else, spend a payment to several keys | the output script is a program of pushes of any number of keys up to 16 and CHECKMULTISIG; evaluation that ends with success is run backwards through the loop of C90, and run forwards from good signatures; the signature check is that of the document of the transaction (C76), for which each check that does not succeed is shown to be an error under both sets of rules | Pay/KeysProps, Sig/KeysProps | partial |
| C169 | What a signature does not cover can be changed afterwards, and what it covers cannot be left out | agreement of two transactions for a directive is specified field by field; the digests are shown to be equal, and the evaluation of the three kinds of payment to depend on the digest only (C78, C168).  For the false part a signature with directive 0x40 is made with any key and shown to be accepted with any outputs | Pay/CoverProps | partial |
| C170 | A script that checks no signature and no lock time is worth the same in every transaction | two runs with different documents go through the same steps, by induction over the program; the opcodes that use the document are found by a table of all 256 opcodes | Script/FreeProps | proved |
| C171 | What is pushed before the arguments of a script makes no difference, and is refused where the stack has to be clean | a relation between code run on a stack and on the same stack with more below it, shown for every primitive, for every opcode but three, and by induction for whole programs; the scripts are put together with and without the pushes | Script/BelowProps | partial |
| C172 | A Boost output is spent only by the owner of a key for which the work has been done | the Boost script is run on any stack whatever, each instruction with enough or too little below it, up to the signature check with anything left over; the values found are shown to be those of an input that redeems the output | Boost/AnyProps | partial |
| C173 | How values are pushed makes no difference to an output script, and where pushes must be minimal there is only one way | two runs whose code before the last separator differs take the same steps; the pushes before the separator leave the same machine; the minimal instruction for a value is unique by cases on opcode and length | Script/EncodingProps | partial |
| C174 | Only who can sign for it changes the id of a transaction that spends payments to addresses | what an accepted unlocking script holds follows from C167; the DER form of two numbers is unique because the length of a number without superfluous zeros is that of its value; a low S excludes its negative because the order is odd; the transactions are compared input by input | Pay/IdProps, Sig/ForwardProps, Sig/NumbersProps | partial |
| C175 | Accepted unlocking scripts change only in the values that they push, and for payments to addresses and keys those are signatures | that values are pushed in one way is C173; what the values are is C167 and C168; the numbers of a signature fix its bytes by C174 | Pay/IdAnyProps | proved |
| C176 | No value comes into being along a whole proof | the tree behind an accepted payment is C55 kept within the proof; the outputs of a list of different transactions are different points, and the sums over them are compared | SPV/ConserveProps | partial |
| C177 | Nobody's money moves in an accepted payment without their signature | the tree behind an accepted payment is C55; which rules its scripts are run by follows from the time of the upgrade; what it takes to spend by these rules is C167 and C168 | Pay/OwnedProps | partial |
| C178 | What is accepted out of a BEEF has been signed for and is covered by what is confirmed | reading a BEEF files transactions under their ids and takes headers from the database (C103), so that C176 and C177 apply without assumptions about the proof | Pay/BeefOwnedProps | partial |
| C179 | Payments to a key move only as its owner has signed | the equation by which ECDSA signatures are verified is stated over an abstract group, and the numbers that fulfil it for the digest zero are given and encoded; in the other direction, C167, C29 and C28 are composed: a digest that is not zero is that of a signed document, and the message written determines what the directive covers | Pay/ForgeProps | partial |
| C180 | What is accepted stays accepted | checking is shown to be monotone in the set of known headers, by induction over proofs of any depth; the changes of the database in memory keep that set (C53 for reorganisations); and the exact condition of acceptance (C160) is kept when a proof ages | Pay/StaysProps | partial |
| C181 | Every script and every payment gets an answer | The exceptions of reading a script and the overflow of sums are outcomes of the model. A script cut short is given by a grammar of its own; reading a script gives the uncaught exception only for these, by induction on the script, and the check of a proof only if a script does, by induction on the proof. | Pay/AnswerProps, Script/AnswerProps | partial |
| C182 | What is accepted out of an SPV envelope has been signed for and is covered by what is confirmed | Reading the envelope and checking what is read are both modelled; a payment read from a valid envelope has its transactions filed under their ids, by induction on the envelope, and C177 and C176 apply. That all headers used are those of the database or of the envelope is by induction too; the counterexample is an envelope with a header of another time. | Pay/EnvelopeOwnedProps | partial |
| C183 | Reading takes no more memory than a multiple of what is read | The readers are modelled a second time with the list of the sizes of the buffers that are made, shown to read the same values; the bounds are closed under reading one thing after another. With a limit of memory, the first buffer over it throws, and each constructor catches what it catches in the code. | Pay/MemoryProps | partial |
| C184 | Making a proof takes work in proportion to the transactions it is made of | generate_proof is modelled a second time with the list of what the database is asked, shown to give the same answer. The number of questions is the solution of an equation over the database; with every transaction spent once, what is reached from two inputs is disjoint, by induction over the way to it. | SPV/AskedProps | partial |
| C185 | Validating a proof takes work in proportion to the transactions it holds | validate is modelled a second time with the list of the inputs it looks at, shown to give the same answer. What may still be checked is a potential that pays for each step: each derived transaction is paid for when its digest is added to those checked. The bound is proved for any weight of inputs, of which their number and the count of one input are cases. | SPV/TurnsProps | proved |
| C186 | An SPV envelope is no larger than the transactions of the proof | Counts the transactions of the envelope made by the model of to_SPV_envelope, and compares with the places and the distinct digests of the proof; the witness is a family of proofs, by induction over the layers. | Pay/EnvelopeSizeProps | partial |
| C187 | A payment to a hash is spent by whoever knows what has the hash | Models the script, the pattern and redeem of pay_to_hash; runs the script on the model of the machine both ways, from a success back to the stack and from the stack to a success. | Sig/HashLockProps | partial |
| C188 | Validating a proof takes a bounded piece of the stack | Adds to the model of check_sub_proof the greatest number of calls open at one time, shows that the answers stay the same, bounds it by the height of the proof by induction over the proof, and gives a chain of any length that takes all of it. | SPV/DepthProps | partial |
| C189 | The answer for a payment does not depend on order or on what is not spent | The model of proof::validate (C58): a function that removes from a proof, at every depth, what is not spent, and a mutual induction showing that nothing else is looked at; the order of the payment by the characterisation of C160, and witnesses where it matters. | SPV/UnspentProps | partial |
| C190 | An incomplete transaction can be copied, asked and thrown away in any order | A model of the pointers of `cached` with a heap in which giving back twice and reading what was given back are undefined; a specification in which objects are values without a cache; refinement by an invariant (every object has its own digests) for programs that copy nothing that was asked, and an invariant (an address is shared or dangling) that no program can leave for the others. | Sig/CachedProps | partial |
| C191 | Evaluating scripts leaves nothing in memory | The machine with the number of documents that have been made and not deleted; an evaluation with the count gives the same answers as without (refinement), and the count is followed through every operation by induction on the steps. | Script/HeldProps | partial |
| C192 | A copy of an interpreter is an interpreter of its own | A model of the objects with what is shared: numbered stacks behind the shared pointer, and for every program counter the object whose bytes it points into; a specification in which interpreters are values; refinement by an invariant (an interpreter that has not halted has its stacks for itself and points into its own script). | Script/CopiesProps | partial |
| C193 | Reading an SPV envelope leaves nothing in memory but the envelope | Reading of nodes and envelopes with the number of nodes that were made with `new` and are in memory, where maps of shared pointers give back what they have when they go and a plain pointer does not; the same answers as without counting, and an exact description of the values that lose nodes by induction on depth and entries. | Pay/LostProps | partial |
| C194 | What a mining server says of an error tells which error it is | The table of messages, and errors made of codes; the table is checked entry by entry and pair by pair by the kernel and lifted to all codes, the rest is by the round trip of responses (C64) and arithmetic modulo 2^32. | Stratum/ErrorsProps | partial |
| C195 | The number of signatures checked is bounded by the length of the scripts and by the limit of operations | The machine with a count of the checks of signatures; the bound by operations is an invariant of the count of operations, the bound by instructions an amortised argument over the elements on the stacks: an instruction adds at most three elements, and CHECKMULTISIG tries at most as many keys as it removes. | Script/ChecksProps, Script/UncheckedProps | proved |
| C196 | A payment locked until a time is not spent before it, and from then on by its owner | The machine on scripts that begin with a number and a lock-time opcode, with the document made of a transaction and an input; runs that succeed are followed instruction by instruction (as for C167), with what C22 says of the opcodes, and the rest of the script is any. | Sig/TimeLockProps | partial |
| C197 | What is hashed for signatures grows with the transaction, not with its square | The calls of `signature::hash` on one incomplete transaction, with a count of the bytes hashed and with the digests that are kept; an invariant says that what has been hashed and what is still to be kept add up to no more than the bound. | Sig/HashedProps | partial |
| C198 | A payment that offers a choice is spent only in one of the ways it offers | Runs that end with success are followed backward through the branch taken, instruction by instruction, and through what is skipped by induction; for the negation the run of `1 0` is followed forward to the end. | Sig/BranchProps, Sig/WaysProps | partial |
| C199 | A script that ends by asking for a signature is not satisfied without it | Runs that end with success are followed backward through any straight program by induction, then through the push of the key and CHECKSIG to the end of the script. | Sig/EndKeysProps, Sig/EndsProps | partial |
| C200 | What a script asks for first is asked of everyone who spends | Runs that end with success are followed through the first instructions of the locking script; nothing is said of the rest of the run. | Sig/FirstProps | proved |

Nothing in the list is judged inexpressible.

## Where the code does not do what is claimed

Each of these is proved in the model with a witness; the theorem is named in brackets, or is among those of the property named.
They are disagreements between the property and the code, read as text; none has been run.

**Scripts**

* The flags that switch lock-time checks on switch them off; the operand is cut to 32 bits; the disable bit of CHECKSEQUENCEVERIFY fails the
  script without an error (C22).
* CHECKSIGVERIFY and CHECKMULTISIGVERIFY end the whole script as verified when the signature is good (C21, C24).
* Once a branch is skipped, ELSE and ENDIF are skipped too, so the rest of the script is never executed (C20).
* RETURN in an unlocking script ends the evaluation as successful (C79).
* PICK, ROLL, LSHIFT, RSHIFT, SPLIT, LEFT, RIGHT, SUBSTR and NUM2BIN take a negative zero for another number, and LEFT, RIGHT and SUBSTR then
  read outside their operand (C19, C23, C25, C26, C75, C83).
* A push of 256 or of 65536 bytes made by the library does not count as minimal (C11); announced push sizes are wrong at 75, 255 and 65535
  bytes (C12); a PUSHDATA4 of almost 2^32 bytes wraps around (C14).
* An empty signature is an error where the fork id is required or an encoding is demanded (C76); the strict check accepts negative numbers and
  refuses zero (C77).
* CHECKMULTISIG removes elements from the bottom of the stack from the script code instead of the signatures (C90).
* A code separator inside a conditional breaks the signature checks after it, and separators in skipped branches count (C85).
* SINGLE without a matching output reads outside the outputs in `sighash::write` (C29).
* By the rules after Chronicle an unlocking script of the one byte RETURN spends every Boost output, without work and without a key (C172), as it does every other output (C79, C167).
* For payments to the hash of a script the checks before running are left out: pushes need not be minimal although the rules demand it, and the way the script is pushed is part of the code that its signatures are checked against (C173).
* The strict signature check takes a number with its high bit set with and without a zero in front. Both are read as the same number by the check for a low S, and only the parser of libsecp256k1, whose result is not looked at, keeps the second form from verifying. Before Genesis a CODESEPARATOR can be put behind an unlocking script for an address by anybody, which changes the id of the transaction (C174).
* A payment is accepted whose transaction spends one confirmed output with two inputs, and so is worth twice what it spends (`C176_false_twice`): proof::validate adds up
  the outputs of the inputs and never compares the references of the inputs with one another.
* Whoever calls proof::validate with the time of the genesis upgrade accepts theft of any output that pays to an address (`C177_false_stolen`, `C177_false_forged`): the
  rules are chosen by the time in the header that comes with the proof, only the Merkle root of that header is looked up, and it may have any target. So a thief takes the
  true root, an earlier time and an easy target, and spends with the script `0 0 0 CHECKMULTISIGVERIFY` by the rules before Genesis. Without the time (the default) it is
  safe (`C177_agreed_partial`).
* **Anyone can take what was paid to a known public key (C179).** `signature::hash` (signature.cpp 9) returns the digest zero, instead of the hash of a message, for
  SINGLE without an output of the same number as the input. The digest zero needs no secret key: with r the first coordinate of the public key and s = r or s = n - r, both
  in the allowed range, the equation of verification holds. One unlocking script with the directive 0x43 hence spends every output paid to that key or its address, in every
  transaction with fewer outputs than inputs up to there (`C179_false_address`, `C179_false_key`), by the rules of either era. By the scheme with the fork id the message is hashed, with zero in
  place of the hash of the outputs; so nodes refuse what `proof::validate` accepts here.
* **Anyone can make the check of payments end with an exception (C181).** `evaluate` catches the exceptions of running a script and `invalid_program`
  (interpreter.cpp 14-31, 86-103), not the one that `read_push` (instruction.cpp 71-99) makes by reading past the end. A locking script that ends in `4c`, PUSHDATA1 without a size, or a
  redeem script that does, throws out of `evaluate` and of `proof::validate` (`C181_false_cut`, `C181_false_thrown`). The payment needs nothing that is confirmed: a
  transaction without inputs whose output of no value has the script, and one that spends it. Two outputs of 2^62 satoshis overflow (`C181_false_undefined`).
* **An envelope brings its own headers (C182).** `read_confirmation` looks up the header in the database by the Merkle root, takes only the height from it,
  and keeps the header that is in the envelope. With a time of the upgrade given, whoever writes the envelope chooses the time, and with it the rules under which
  the outputs of the confirmed transaction are unlocked. What was paid to an address is taken without a signature although every header of the database is right.
* **Sizes are believed before anything is read (C183).** `var_string::read` resizes its buffer to the announced size. A message of 50 bytes makes
  `transaction::transaction` ask for up to 2^64 bytes. `block::block` catches `bad_alloc`, and not `length_error`; `transaction::transaction` and `BEEF::BEEF` catch neither, so that one malformed
  message ends a program that reads transactions from others. `block::transactions` makes a vector of as many slices as are announced.
* **Making a proof takes exponential time (C184).** `generate_proof_node` is called for every input, also for one that spends from a transaction for which a node has been made,
  and the node made the second time is dropped. A chain of n unconfirmed transactions with two inputs each that spend the one before takes 3 * 2^n - 1 calls of `database::transaction`: thirty
  such transactions, which cost their sender next to nothing, stop whoever tries to make a proof for a payment that spends the last.
* **Envelopes are exponential in the proof (C186).** `to_SPV_envelope` copies what is shared: sixty-four transactions in thirty layers, which a BEEF holds once each and `proof::validate` looks at
  once each (C116, C185), make an `SPV_envelope` of more than a thousand million nodes. Whoever turns the BEEFs they accept into envelopes can be stopped by one of them.
* **What redeems a payment to a hash never does (C187).** `pay_to_hash::script` ends in EQUALVERIFY and `pay_to_hash::redeem` pushes the preimage and nothing else, so that the stack is empty at the end
  and evaluation is false, whatever the rules. Coins sent there can still be taken by anyone who has seen the preimage, by pushing `1` before it.
* **A long chain overflows the stack (C188).** `check_sub_proof` calls itself for the antecedent of the first input before it has checked anything about the transaction at hand, to the bottom of the
  proof. A BEEF of some sixty bytes for each of n transactions nests n calls, and neither scripts nor values nor headers need be right. The default stack of a thread lasts for some ten thousands of them.
* **The order of a payment can decide whether it is accepted (C189).** What `check_sub_proof` has met before is not checked again and is spent by the rules of a time limit that is not given a value. If a proof has a transaction
  twice, once with a proof that holds and once with one that does not, or if that limit is before the upgrade, two transactions are accepted in one order and refused in the other.
* **Copying an incomplete transaction that has been signed frees memory twice (C190).** `incomplete::transaction::cached` (incomplete.hpp 59-74) has raw pointers and a destructor that deletes them, and no copy constructor, so that the one supplied by the
  compiler copies the pointers. After any signature with FORKID has been made or checked, a copy of the transaction, such as one in a list or captured by a function, leads to a double free, and to reading freed memory if one of them is asked again.
* **A malformed signature in CHECKMULTISIG leaks memory (C191).** The loop is left by `return r.Error` (machine.cpp 837) before `delete doc` (854), so every evaluation of such a script, which anybody can send, leaves a document with its copy of the script code in
  memory.
* **A copy of an interpreter shares its stack and reads its script (C192).** `machine::Stack` is a shared pointer (machine.hpp 29) and `program_counter` has slices into the `Script` of the interpreter it was made for (counter.hpp 15-16, interpreter.cpp 32-33); the
  copy constructor supplied by the compiler copies both. Stepping a copy, for example to look ahead or to go back later, changes the stack of the original, and stepping it after the original is gone reads freed memory.
* **A node of an SPV envelope under a wrong key is never given back (C193).** `read_JSON` and the constructor (pay/SPV_envelope.cpp 164-169 and 211-216) make a node with `new` and then return if `read_txid (key)` fails, before the node is in a shared pointer or
  deleted. Anybody who can send an envelope can make a receiver keep as much memory as the envelope describes, each time.
* **A number over 32 bits is read as another error (C194).** `error::valid` (stratum/error.hpp 55-57) takes any unsigned number for a code, and the constructor (error.cpp 38-42) keeps its last 32 bits: 4294967317 is read as 21, "job not found or stale". Of a value that is no error it leaves the code unset.
* **With the flag that should enforce them, time locks have no effect (C196).** As the tests of the flags in machine.cpp 126 and 166 are inverted (C22), a payment to a key that is locked by CHECKLOCKTIMEVERIFY is spent at any time under every set of rules that has the flag `VERIFY_CHECKLOCKTIMEVERIFY`: the signature alone decides.
* **The digest of a single output is not kept (C197).** sighash.cpp 66-67 hashes the output again for every signature with SINGLE, unlike the digests of outpoints, sequence numbers and all outputs: a script with k signatures for one output of s bytes takes k times s bytes of hashing. Without the fork id everything is hashed for every signature.
* **Anyone can spend a payment that begins with a condition (C198).** Since machine.cpp 83-84 skips ELSE and ENDIF together with the branch that is not taken, and nothing is said at the end of a conditional that is still open, `1 0` spends every output whose script begins with IF, a contract of hash or time among them, under all rules that were modelled, with no signature.
* **Of two keys only the first is asked (C199).** `<b> CHECKSIGVERIFY <a> CHECKSIG` is spent with a signature of `b` alone, since CHECKSIGVERIFY ends the script with success (C21), and `IF ENDIF <a> CHECKSIG` with none.
* CHECKMULTISIG removes from the signed script what it finds at the bottom of the stack (C171): whoever passes on a transaction can put a push of a key in front of the unlocking script, and the key is then removed from the script that the signatures are checked against, so that they fail.
* A signature with the directive 0x40 (fork id, no type) is accepted (C169): `sighash::valid` tests only the unused bits, and `Amaury::write` covers the outputs only if the type is ALL or SINGLE.  Such a signature covers no output, so that whoever sees it can send the money elsewhere.
* A payment to w of n keys can be spent only with the last w keys (C168): a signature is tried with the last key first, and `verify_signature` (script.cpp 42) gives an error, not only failure, for a nonempty signature that is not good when null-fail is demanded, as it is in both profiles; `OP_CHECKMULTISIG` (machine.cpp 835-837) returns that error at once.  So the owner of the first of two keys, of which one has to sign, cannot spend.
* Before Genesis anyone spends any output with an ordinary script (C168): unlocking scripts may do more than push, and CHECKMULTISIGVERIFY ends the script with success, so that the unlocking script `00 00 00 af`, which checks none of no signatures with no keys, is enough.
* Payments to addresses can be stolen by transactions from before Genesis, as far as checks of received payments with a given time of Genesis go (C167): under `pre_genesis_profile` unlocking scripts may do more than push, and CHECKSIGVERIFY ends the script with success.  Whoever pushes a signature and a key of their own, then CODESEPARATOR and CHECKSIGVERIFY, spends any output, in any transaction; the output script is not run.  Since Chronicle the single byte RETURN does.
* Merkle proofs say nothing of transactions of 64 bytes: the length of a path is not compared with the height of the tree and no size is refused, so that a pair of ids can pass for a transaction and the other way round, and a payment out of nothing is accepted (C165). Roots do not change when the last of an odd number of transactions is listed twice, and nothing refuses such lists (C166).
* The flags `VERIFY_CHECKLOCKTIMEVERIFY` and `VERIFY_CHECKSEQUENCEVERIFY` work the wrong way round: setting them accepts scripts that are refused without them, and so does the flag for payments to script hashes (C164; see also C163).
* Outputs that pay to the hash of a script can be spent by anyone when the flag for them is set: the script that is pushed runs before its hash is compared (instruction.cpp 406-417, interpreter.cpp 20-24 skip the check of the assembled program), and `1 0 IF` skips the comparison; CHECKSIGVERIFY, which ends the evaluation with success, does too. Conversely an ordinary signature for the script given is refused, as it is checked against more than that script (C163).
* `provably_unspendable` holds after genesis of scripts that begin with OP_FALSE OP_RETURN, but the interpreter ends a script at OP_RETURN with success and does not look at the stack: data outputs are spent by the empty script (C162).
* `valid` for Japanese phrases cuts the text at each of the bytes E3 and 80 instead of at the letter U+3000. Each Japanese word has the byte E3, so that no text whatever is valid in Japanese (C161).
* In `check_sub_proof` the time for a transaction that has been met before is a limit that is not given a value. If that is before the upgrade, the scripts that spend it a second time are checked by the rules before genesis: two transactions that are accepted each are refused together (C160). A transaction that is in a proof twice with different proofs is only checked where it is met first (C160).
* For a Boost output whose target has an exponent below 3 or above 32 the miner finds solutions that redeem nothing (C159).
* An account gives out addresses whose keys it derives and then refuses to sign with: what is sent there is not redeemed (C158).
* A payment that spends the only transaction of a block is accepted with its proof but not as BEEF (C157).
* The error for script code that cannot be read is printed as "unknown error" (C156).
* Patterns: pushes that are not minimal are recognised, scripts that end inside a push throw, a repeated optional pattern does not end, an
  upper bound of zero is no bound, parts of a sequence lose their class (C68, C69, C91, C92).

**Transactions, blocks and work**

* The six bytes of the extended format's marker are not looked at (C09); slicing an output uses an uninitialised variable (C73).
* Valid transactions can have negative amounts with a FALSE RETURN script; coinbase transactions are recognised by index 0 instead of 2^32 - 1;
  malformed scripts throw (C88); extended transactions with a negative output create value (C96).
* A block is valid whatever its Merkle root (C89).  The hash of a transaction or header is not recomputed after a field is changed (C87).
* Sums of valid amounts overflow (C52); fee rates are compared with overflow and with sizes of zero (C95); the expected size of a design
  counts its inputs twice and its outputs never (C51).
* The compact form of a target below 2^24 uses an uninitialised exponent (C45); the solver returns an empty proof for a zero target and
  is undefined without an extra nonce (C47); a proof rebuilt from its string ignores the path (C86).

**Keys and text**

* Adding or multiplying secret keys returns 0 or 1; adding public keys ignores the first and can abort (C40), so an incrementing key source
  repeats (C72).  The validity of a secret key is read in the wrong byte order (C38, C97).
* Public HD derivation compares with the order in the wrong byte order (C42); `read_path` does not end on "m/..." and accepts malformed
  text (C43).  Byte 45 of a secret HD key is ignored (C41).
* The version mask that a session agrees on (bits that the miner may change) is used as the mask of bits that the miner may not
  change: honest shares are refused and others accepted.  `solved::valid` does not look at the job id, and nothing looks at the
  length of the extra nonce (C114).
* Addresses of an account from index 2^31 on are all that of the empty string on the main network; accounts from 2^31 on are others' accounts;
  an index that is passed over gives a key that is delivered again; an impossible master key is not noticed (C113).
* Addresses with short payloads are accepted (C37).  Seed phrases of any number of words are accepted; 27 or more are undefined (C44).
* BIP 276: empty data is refused, and upper-case hex with a good checksum is undefined (C65).
* The entropy source delivers zeros, a second read is undefined, and a random key source never returns (C66).
* Timestamps from 2038 on overflow, the day is the month, text that cannot be parsed is undefined, February 30 is accepted (C70).

**Merkle proofs and payments**

* A tree's proof by index is of the root; a tree of no leaves is undefined (C30); a server made from a tree finds nothing (C32).
* BUMPs: the depth is one byte (C33), a branch with no digests or an index above 2^32 gives another root (C34), and a node given at an offset
  that the level below determines lets any transaction be marked in a BUMP that validates (C80).
* Merging BUMPs of one block compares the greatest positions first but takes the smaller one: with the first, the third and then the second
  transaction of a block of four the result has positions twice and no root; BUMPs of different heights silently give an empty one, and
  one with more levels than the other is undefined (C115).
* Writing a payment as BEEF can give one that nobody accepts (C116): three transactions of one block that are met out of the
  order of the block, which depends on their ids, get a BUMP without a root; the only transaction of a block gets a BUMP
  that is not valid; and a transaction of the proof that nothing spends is read back as part of the payment.
* JSON of BUMPs: a flag that is none of the three, which bytes can have, is lost; a BUMP without levels is written but not
  read; a node without a hash is undefined behaviour; a negative position is accepted (C117, C118).
* The merchant API is not usable for answers: `static_cast<T> (*this) = x` in MAPI.hpp 493 and MAPI.cpp 323, 368, 423 assigns to a copy,
  so responses, policy quotes, submissions and transaction statuses lose what was read (C119, C120, C121); `read_status` asks for
  "returnDescription" and reads "resultDescription", so what is written is never read and what a server sends is undefined (C120);
  `submit_transactions` asks for "currentHighestBlockHash" and reads "blockHash"; the conflicts and statuses in a list are checked only
  for the first; envelopes without a signature are accepted although every response is to come with one (C121); booleans are sent as
  the text "1" or "0" (C122).
* ARC: `response::valid` takes JSON that is not said to be JSON and what is said to be JSON and is not, and then reading it is
  undefined; `&&` and `||` without parentheses make anything valid with most error codes; `response::error` calls itself forever;
  `policy::valid` does not look into "miningFee" (C123).  `policy::satisfies` compares the fee of a transaction with the fee of one
  byte, and `transaction::sigops` returns 0 (C124).  The functions that read the entries of a status are declared and not defined.
* TSC JSON: a transaction of 32 bytes is read as an id, "targetType" without "target" is valid and undefined to read, a header that cannot
  be read becomes a header of zeros in a valid proof (C126); `transaction_included (JSON)` compares the number of JSON elements, 1 for
  text, with 64, so it is always false, and `block_hash (JSON)` finds nothing in what `operator JSON` writes, since no "targetType" is
  written for a block hash (C127).
* Merkle trees: `tree::valid` accepts trees that are higher than their width asks for, with a value that is not the Merkle root of the
  leaves; `proofs` is undefined on them (C128) and a server made from them is written past its end (C129).
* Script limits: `chronicle_profile` has CUSTOMIZE_SCRIPT_LIMITS, which nothing tests, and not ENABLE_CUSTOM_SCRIPT_LIMITS, so that
  the limits of before Genesis apply (numbers of 4 bytes, 500 operations) and cannot be changed; `script_config` uses the consensus
  limit of memory for policy; nothing reads MaxScriptSize, so the size of scripts is not limited (C130).
* `SPV::confirmation::operator <=>` compares a header with itself and looks at the index only if it differs, so any two confirmed
  transactions are equivalent to `proof::ordering`; a null pointer in a proof is dereferenced by `contains_branch` (C132).
* `work::compact (difficulty)`: if the quotient is a power of 256 (difficulty 65535, for one), the first digit is 256, which is stored
  as 0, so that the target is zero and nothing can meet it; quotients up to 65536 give the target 1; difficulty 0, which is valid,
  never returns (C133).
* TSC proofs in binary form: the flags for a tree (8) and for a composite proof (16) are not looked at on reading, so that such
  bytes are taken for a single branch, although the comments say they are not supported and the JSON form refuses them (C135).
* Reading a transaction accepts counts and lengths that are longer than needed; the digest of such bytes is not the id of the
  transaction that is read.  The six bytes after the version of an extended transaction are skipped without being looked at, so
  that the bytes of some plain transactions can be read as an extended one (C134).
* BEEF: any byte but zero says that a transaction has a BUMP, and it is written back as one (C136).
* `output::script (slice)` makes a slice of the announced length without looking at what is left: for an output that is cut off it
  reaches beyond the bytes given.  `block::merkle_root (slice)` hashes the bytes as they are, and so differs from the root over the
  transactions when counts are longer than needed (C137).
* `FastRandomContext::randbytes` does not seed the context (C138): on a context made to be seeded from OpenSSL, the first call reads the
  ChaCha20 state before a key has been set.  `randrange (0)` gives any number of 64 bits, and `GetRandInt` of a negative bound anything.
* On Apple systems the `else` in `GetOSRand` belongs to the inner `if` (C139): without `getentropy` nothing is asked of the system and the
  bytes of OpenSSL are hashed twice; with it, its bytes are overwritten by those of the random device.  On x86_64 `rdrand` is used four times
  and only the last use is checked.  `GetStrongRandBytes` takes a negative size past its assertion.  `bitcoind_entropy::read` declares
  `RandomInit` instead of calling it, so that the assertion in `GetHWRand` would fail on x86.
* Nothing that a server session sends of itself reaches a client session (C140): notifications are lists and not objects (C64), so that the
  client throws.  `send_set_version_mask` would name the method of extra nonces.  No client ever learns a version mask, since the reading of one
  is inverted (C61), and eight characters that are not all digits are undefined behaviour.  An extra nonce that is not eight digits is taken to
  be zero.
* A server session takes an error with text as its result for a version (C141).  A client session answers the question for its version, then
  sends an error as well and throws; the server throws when the second comes in.
* The contexts that all functions of keys and signatures use are made at the first use, without a lock (C142).  Two threads whose first uses
  overlap race, which is undefined behaviour; in the orders that do not break otherwise, each makes a context and all but the last are lost.
* Two numbers are written as a signature without its marks but with a length that counts them, and with each number counted one too long (C143).
  They are read back only if the two take 58 bytes; of numbers of 32 bytes the reading fails at the end or takes bytes that follow.  A signature
  proper is read as other numbers.  A signature made of two numbers and a directive has four zeros at the end, so that its directive is zero.
  `signature::point`, `R`, `S` and `normalize` are declared and not defined.
* The version message of the p2p protocol is not that of the protocol (C144): time and nonce are written as four bytes and not eight, the
  port with the lower byte first, and an address of four bytes without the `ffff` that marks it, so that it is the same as the address `::a.b.c.d`.
  `serialized_size` is never the size that is written, whatever the version.  A name of a command longer than twelve characters is written
  beyond its array.
* Confirmations are compared without the digests of their paths, so a proof that checks is equal to one that does not (C145).  A null pointer in a
  proof compared with one that is not null is dereferenced.
* The PIN of a CentBee wallet is a number, so a PIN that begins with zero cannot be given (C146).  The seed of an Electrum SV wallet is made of the words,
  `electrum` and the passphrase run together, so that different words and passphrases have the same seed; Electrum SV has the words as the password
  and the rest as the salt.  Phrases in Japanese are generated nowhere and read nowhere, though the words are there.
* `right` of a text gives the last characters only if no more than half of the text is asked for (C147).
* Merkle proofs are ordered by an order that is not transitive; headers, Boost outputs, paths, branches and BUMP nodes that are neither before nor
  after each other can be different; Boost proofs that are equal can have different signatures, BEEFs that are equal different versions, and
  subscriptions that are equal different methods (C148).
* A public key in the hybrid form is valid but is not equal to the same key in another form; `pubkey::x` gives the coordinate with its bytes turned
  around and `pubkey::y` reads through a slice of a destroyed string (C149).
* `Boost::output_script::version (script)` returns the type of the script, not its category
  (boost.hpp 470-472; C150_false_version), `magic_number` is declared and never defined, and
  `input_script::solution` leaves out the general purpose bits (boost.hpp 708-710; C150_false_solution).
* `calculate_fee` goes through `double` (satoshi.hpp 65): above 2^53 the fee can be too low to pay the rate
  (C151_false_less), and a fee of 2^63 or more is converted to an integer that does not hold it, which is
  undefined (C151_false_ub).
* A target made from the difficulty of a target is often one lower (work.cpp 89-139): 0x1d00b5df gives
  0x1d00b5de (C152_false_back).
* `puzzle::expected_size` allows eight bytes for the second extra nonce, which may have 32 if general purpose bits
  are used (C154_false_nonce); a puzzle with a key that is none in the byte order in which it is used is valid
  (C154_false_key).
* The history of jobs of a mining server keeps a job that is too old if the one before it has a later time
  (server_session.hpp 208, C153_false_clock).
* `chain_loader::set_hash` keeps the hash it is told only if one is kept already (timechain.hpp 321, 325), so that
  for an object just loaded it does nothing (C155_false_dropped).
* TSC proofs lose an included transaction, the index is cut to 32 bits, a missing target is undefined (C35).
* Sets of paths: checking ones that disagree does not end (C98), adding them can lose all of them (C99).
* SPV database: a header with the Merkle root of another is lost, gaps leave the latest header undefined or stale (C53); confirmations outlive
  their header after `remove_header` (C54); a transaction inserted with a path is neither confirmed nor listed (C100).
* SPV validation: antecedents are not checked to have the id they are filed under, outputs can be spent twice, outputs can be negative, the
  header of a proof is not that of the database (C55).  A generated payment is reversed (C101); extending reverses the inputs (C102).
* BEEF: a zero root empties the list of roots, the index of a BUMP is not checked, a transaction need not be in its BUMP (C57); equality
  ignores the version (C56); an unusable BEEF is read as an empty payment, which is accepted (C103).
* SPV envelopes: validation ignores the database, malformed JSON is an empty valid envelope, missing inputs are accepted (C58); payments of
  several transactions throw, an unknown header is undefined (C105); proofs that include the transaction cannot be read back (C106).
* JSON envelopes write "UTF_8" and read "UTF-8" (C67).

**Boost**

* A contract with a tag of more than 20 bytes is written but not read (C49); without version rolling the input script still carries bits (C50);
  announced sizes are wrong at 75, 255 and 65535 bytes and the expected size is one too small (C93).
* The output script refuses targets with exponent below 3 or above 32, which are valid proofs off the chain (C94, C107).
* The outputs of a candidate need not have its script, and candidates with the same script are equal whatever outputs they hold (C108).

**Stratum**

* Notifications: three of every four bytes of the digest are reversed, versions and bits change byte order, paths are undefined to write and
  reversed when read (C59); they lose their method and parameters, and four methods have no name (C64).
* Shares: version bits change byte order, a nonce that is not hex is undefined (C60).
* The text of a version mask is never accepted (C61).  Logins that are refused are authorised, and accepted ones are undefined (C62).
* Setting a version mask reports unchanged ones; a mask with too few bits is undefined; a raised minimum leaves a lower difficulty pending (C63).
* Requests sent at the same time share an id, early responses are lost, ids repeat after 2^32 (C109).
* An answer to a subscription to a method without a name cannot be read, sizes of the extra nonce are cut to 32 bits, real difficulties are
  lost (C110).
* Configure: the parameters of a request are written under `key.key` instead of `name.key`, so the library's reader refuses every request with
  parameters; information about the miner is written with `hw-id` and read with `sw-id`; a result made of parameters drops them and one that
  is accepted with parameters is not valid; the check that everything was answered is never passed (C111).
* A client that has asked for anything throws at every answer; behind that, the tests for missing answers are inverted and the names have
  hyphens where the requests have underscores.  A request for the version is answered, then refused, then thrown (C112).

## Source files and the modules that cite them

| file in /repo/src | modules |
|----|----|
| SPV.cpp | Pay/Received, SPV/Asked, SPV/Database, SPV/Depth, SPV/Generate, SPV/Order, ... |
| address.cpp | Text/Check |
| boost/boost.cpp | Boost/Announce, Boost/Model, Boost/Redeem |
| include/SPV.hpp | SPV/Database, SPV/Equal, SPV/Generate, SPV/Order, SPV/Proof |
| include/address.hpp | Text/Check |
| include/boost/boost.hpp | Boost/Announce, Boost/Ask, Boost/Model, Boost/Redeem, Chain/Compare, Work/Hardness |
| include/fees.hpp | Pay/Extended, Pay/Redeem |
| include/hash.hpp | Pay/Envelope |
| include/incomplete.hpp | Sig/Cached, Sig/Hashed, Sig/Model |
| include/merkle/BUMP.hpp | Chain/Compare, Merkle/Bump |
| include/merkle/dual.hpp | Merkle/Dual |
| include/merkle/proof.hpp | Boost/Model, Chain/Compare, Merkle/Dual, Merkle/Model, SPV/Database, Stratum/Job, ... |
| include/merkle/serialize.hpp | Merkle/Tsc, Merkle/TscBinary, Merkle/TscJson, Pay/Envelope |
| include/merkle/server.hpp | Merkle/Model |
| include/merkle/tree.hpp | Merkle/Model |
| include/numbers.hpp | Keys/Point, Script/Machine, Script/Num, Script/Strings |
| include/p2p/checksum.hpp | Keys/HD |
| include/p2p/command.hpp | P2p/Version |
| include/p2p/net_address.hpp | P2p/Version |
| include/p2p/var_int.hpp | Pay/Memory, Serial/Model |
| include/p2p/version.hpp | P2p/Version |
| include/pay/ARC.hpp | Pay/Arc |
| include/pay/BEEF.hpp | Chain/Compare, Pay/Beef, Pay/Memory |
| include/pay/MAPI.hpp | Pay/Mapi |
| include/pay/SPV_envelope.hpp | Pay/Envelope |
| include/pay/envelope.hpp | Pay/JsonEnvelope |
| include/pay/extended.hpp | Pay/Extended, Pay/Memory |
| include/redeem.hpp | Pay/Redeem |
| include/satoshi.hpp | Pay/Arc, Pay/Extended, Pay/FeeFor |
| include/schema/bip_39.hpp | Keys/Wallet, Text/Bip39Lang |
| include/schema/bip_44.hpp | Keys/Bip44, Keys/Wallet |
| include/schema/hd.hpp | Keys/Bip44, Keys/HD |
| include/schema/keysource.hpp | Keys/Secp |
| include/schema/random.hpp | Keys/Random |
| include/script.hpp | Pay/Received, Script/LockTime, Script/Machine |
| include/script/bitcoin_core.hpp | Script/LockTime |
| include/script/config.hpp | Script/Config, Script/Interp, Script/Machine, Sig/Verify |
| include/script/counter.hpp | Script/Copies, Script/Instr |
| include/script/error.h | Script/Instr |
| include/script/instruction.hpp | Boost/Model, Chain/Unspendable, Chain/Valid, Script/Instr |
| include/script/interpreter.hpp | Script/Copies, Script/Interp |
| include/script/machine.hpp | Script/Copies, Script/Machine |
| include/script/opcodes.h | Script/Asm, Script/Instr, Script/Machine |
| include/script/pattern.hpp | Boost/Model, Script/Pattern |
| include/script/pattern/pay_to_address.hpp | Script/Pattern |
| include/script/pattern/pay_to_hash.hpp | Script/HashLock |
| include/script/pattern/pay_to_pubkey.hpp | Script/Pattern |
| include/script/pattern/pay_to_script_hash.hpp | Script/Pattern |
| include/script/stack.hpp | Script/Copies, Script/LockTime, Script/Machine |
| include/script/typed_data_bip_276.hpp | Text/Bip276 |
| include/secp256k1.hpp | Boost/Model, Keys/Forms, Keys/Point, Keys/Secp, Pay/Redeem, Sig/Verify, ... |
| include/sighash.hpp | Script/Machine, Sig/Cached, Sig/Hashed, Sig/Model |
| include/signature.hpp | Boost/Model, Keys/Point, Pay/Redeem, Script/Machine, Sig/Hashed, Sig/Verify |
| include/stratum/boolean_response.hpp | Stratum/Message |
| include/stratum/client_get_version.hpp | Stratum/ClientSession, Stratum/Told |
| include/stratum/client_session.hpp | Stratum/ClientSession, Stratum/Told |
| include/stratum/client_show_message.hpp | Stratum/Params, Stratum/Told |
| include/stratum/difficulty.hpp | Stratum/Params |
| include/stratum/error.hpp | Stratum/Errors, Stratum/Message |
| include/stratum/extensions.hpp | Stratum/Configure, Stratum/Session |
| include/stratum/job.hpp | Stratum/Job |
| include/stratum/message_id.hpp | Stratum/Message |
| include/stratum/method.hpp | Stratum/Message |
| include/stratum/mining.hpp | Stratum/Job, Stratum/Mining, Stratum/Params, Stratum/Session |
| include/stratum/mining_authorize.hpp | Stratum/Session |
| include/stratum/mining_configure.hpp | Stratum/Configure |
| include/stratum/mining_notify.hpp | Stratum/Job, Stratum/Mining, Stratum/Told |
| include/stratum/mining_set_difficulty.hpp | Stratum/Params, Stratum/Told |
| include/stratum/mining_set_extranonce.hpp | Stratum/Params, Stratum/Told |
| include/stratum/mining_set_version_mask.hpp | Stratum/Params, Stratum/Told |
| include/stratum/mining_subscribe.hpp | Chain/Compare, Stratum/Params |
| include/stratum/remote.hpp | Stratum/ClientSession, Stratum/Remote |
| include/stratum/server_session.hpp | Stratum/History, Stratum/Session, Stratum/Told |
| include/stratum/session_id.hpp | Stratum/Params |
| include/stratum/stratum.hpp | Stratum/Message |
| include/timechain.hpp | Boost/Announce, Boost/Redeem, Chain/Compare, Chain/Loader, Chain/Parts, Chain/Valid, ... |
| include/timestamp.hpp | Chain/Compare, Stratum/History, Stratum/Job, Text/Time |
| include/types.hpp | Text/Check |
| include/wif.hpp | Keys/Bip44, Keys/Forms, Keys/Random, Pay/Redeem, Text/Check |
| include/work/ASICBoost.hpp | Serial/Model, Work/Model |
| include/work/proof.hpp | Boost/Model, Chain/Compare, Merkle/Dual, Merkle/Model, SPV/Database, Stratum/Job, ... |
| include/work/string.hpp | Work/Model |
| include/work/target.hpp | Work/Difficulty, Work/Hardness, Work/Model |
| incomplete.cpp | Sig/Model |
| merkle.cpp | Merkle/Dual, Merkle/Model, Merkle/TreeValid |
| merkle/BUMP.cpp | Merkle/Bump, Merkle/BumpSum, Pay/Beef, Pay/BumpJson, Pay/Memory |
| merkle/dual.cpp | Merkle/Dual |
| merkle/serialize.cpp | Merkle/Tsc, Merkle/TscJson, Pay/Envelope, Pay/Memory |
| numbers.cpp | Script/Num, Script/Strings |
| p2p/checksum.cpp | Text/Check |
| p2p/var_int.cpp | Pay/Memory, Serial/Model |
| p2p/version.cpp | P2p/Version |
| pay/ARC.cpp | Pay/Arc |
| pay/BEEF.cpp | Pay/Beef, Pay/BumpJson, Pay/Memory |
| pay/MAPI.cpp | Pay/Mapi |
| pay/SPV_envelope.cpp | Pay/Envelope, Pay/Lost |
| pay/envelope.cpp | Pay/JsonEnvelope |
| pay/extended.cpp | Pay/Extended |
| redeem.cpp | Pay/Redeem |
| schema/bip_39.cpp | Keys/Wallet, Text/Bip39, Text/Bip39Lang, Text/Words, Text/WordsJapanese |
| schema/electrum_SV.cpp | Keys/Wallet |
| schema/hd.cpp | Keys/Bip44, Keys/HD |
| schema/random.cpp | Keys/Random, Keys/SvRandom, Keys/SvStrong |
| script.cpp | Pay/Redeem, Script/LockTime, Sig/Verify |
| script/config.cpp | Script/Config, Script/Machine |
| script/counter.cpp | Script/Instr |
| script/error.cpp | Script/Print, Stratum/Errors, Stratum/Message |
| script/instruction.cpp | Script/Asm, Script/Instr, Script/Interp, Script/Print |
| script/interpreter.cpp | Script/Checks, Script/Copies, Script/Held, Script/Interp |
| script/machine.cpp | Script/Checks, Script/Held, Script/Instr, Script/Machine, Script/Num, Sig/Spend |
| script/opcodes.cpp | Script/Asm |
| script/pattern.cpp | Script/Pattern |
| script/stack.cpp | Script/Machine |
| script/typed_data_bip_276.cpp | Text/Bip276 |
| secp256k1.cpp | Keys/Context, Keys/Der, Keys/Forms, Keys/Point, Keys/Secp, Pay/Redeem, ... |
| sighash.cpp | Sig/Hashed, Sig/Model |
| signature.cpp | Sig/Hashed, Sig/Model |
| stratum/client_session.cpp | Stratum/ClientSession, Stratum/Told |
| stratum/error.cpp | Script/Print, Stratum/Errors, Stratum/Message |
| stratum/extensions.cpp | Stratum/Configure, Stratum/Session |
| stratum/method.cpp | Stratum/Message |
| stratum/mining.cpp | Stratum/Mining |
| stratum/mining_authorize.cpp | Stratum/Session |
| stratum/mining_configure.cpp | Stratum/Configure |
| stratum/mining_subscribe.cpp | Stratum/Params |
| stratum/remote.cpp | Stratum/Remote |
| stratum/server_session.cpp | Stratum/Session, Stratum/Told |
| stratum/stratum.cpp | Stratum/Message |
| timechain.cpp | Chain/Parts, Chain/Valid, Pay/Arc, Pay/Memory, Serial/Model |
| timestamp.cpp | Text/Time |
| wif.cpp | Text/Check |
| work.cpp | Work/Difficulty, Work/Hardness, Work/Model |
| sv/include/sv/consensus/consensus.h | Script/Config |
| sv/include/sv/policy/policy.h | Script/Config |
| sv/include/sv/random.h | Keys/SvRandom |
| sv/random.cpp | Keys/Random, Keys/SvRandom, Keys/SvStrong |

Not cited at all, and so not modelled: ecies/bitcore.cpp, ecies/electrum.cpp, include/Gigamonkey.hpp, include/coinbase.hpp, include/ecies/bitcore.hpp, include/ecies/electrum.hpp, include/p2p/addr.hpp, include/p2p/empty.hpp, include/p2p/get.hpp, include/p2p/inv.hpp, include/p2p/message.hpp, include/p2p/pingpong.hpp, include/pay/pay.hpp, include/schema/electrum_sv.hpp, include/script/pattern/op_return.hpp, include/stratum/mining_submit.hpp, include/work/solver.hpp, pay/pay.cpp, sv/include/sv/compat.h, sv/include/sv/util.h, sv/include/sv/utiltime.h.

Of these, `op_return.hpp`, `pay_to_hash.hpp`, `coinbase.hpp`, the `ecies` and the `p2p` messages are not compiled by the library or are
unfinished (missing definitions), and nothing relies on them; the rest are tables, text output, or are still to be done.
