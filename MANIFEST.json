{
 "claims": [
  {
   "property": "C01",
   "status": "proved",
   "theorems": [
    "Verif.C01_varint_roundtrip"
   ],
   "note": "all counts below 2^64, any following bytes"
  },
  {
   "property": "C02",
   "status": "proved",
   "theorems": [
    "Verif.C02_varint_shortest",
    "Verif.C02_varint_prefix_free"
   ],
   "note": ""
  },
  {
   "property": "C03",
   "status": "proved",
   "theorems": [
    "Verif.C03_header_bijection"
   ],
   "note": "both the stream reader and the 80-byte slice reader"
  },
  {
   "property": "C04",
   "status": "proved",
   "theorems": [
    "Verif.C04_transaction_roundtrip",
    "Verif.C04_long_script_is_undefined"
   ],
   "note": "the second theorem shows the 2^31 bound is needed: a longer script overflows the reader's signed counter"
  },
  {
   "property": "C05",
   "status": "proved",
   "theorems": [
    "Verif.C05_serialized_size_exact"
   ],
   "note": ""
  },
  {
   "property": "C06",
   "status": "proved",
   "theorems": [
    "Verif.C06_truncated_rejected",
    "Verif.Chain.C06_truncated_invalid"
   ],
   "note": ""
  },
  {
   "property": "C07",
   "status": "proved",
   "theorems": [
    "Verif.C07_serialisation_injective",
    "Verif.C07_concatenation_injective"
   ],
   "note": "hash collisions are outside the model"
  },
  {
   "property": "C08",
   "status": "proved",
   "theorems": [
    "Verif.C08_block_roundtrip"
   ],
   "note": "also covers slicing a serialised block into serialised transactions"
  },
  {
   "property": "C09",
   "status": "partial",
   "theorems": [
    "Verif.Pay.C09_roundtrip_partial",
    "Verif.Pay.C09_injective",
    "Verif.Pay.C09_false"
   ],
   "note": "proved except that bytes without the marker are refused, which is false of the code: the six bytes are skipped without being looked at; scripts and lists are shorter than 2^31"
  },
  {
   "property": "C10",
   "status": "proved",
   "theorems": [
    "Verif.Script.C10_push_data",
    "Verif.Script.C10_too_long"
   ],
   "note": "the second theorem shows the 2^31 bound is needed"
  },
  {
   "property": "C100",
   "status": "partial",
   "theorems": [
    "Verif.SPV.C100_listed_partial",
    "Verif.SPV.C100_kept",
    "Verif.SPV.C100_inserted",
    "Verif.SPV.C100_removed",
    "Verif.SPV.C100_false_path",
    "Verif.SPV.C100_false_listed"
   ],
   "note": "that transactions without proof are listed is proved for all histories without insert(transaction, path), for which it is false; that only stored ones are listed is false after a replaced header"
  },
  {
   "property": "C101",
   "status": "proved",
   "theorems": [
    "Verif.SPV.C101_generated",
    "Verif.SPV.C101_accepted",
    "Verif.SPV.C101_ends",
    "Verif.SPV.C101_stored",
    "Verif.SPV.C101_backed",
    "Verif.SPV.C101_truthful"
   ],
   "note": "The payment in the proof is in the reverse order of the one given."
  },
  {
   "property": "C102",
   "status": "partial",
   "theorems": [
    "Verif.SPV.C102_extend_partial",
    "Verif.SPV.C102_extends_iff",
    "Verif.SPV.C102_false_order",
    "Verif.SPV.C102_false_index",
    "Verif.SPV.C102_extended",
    "Verif.SPV.C102_validated"
   ],
   "note": "Extending with the database reverses the inputs, so that the transaction is another one; and an index out of range is undefined behaviour. Converting proofs is as it should be."
  },
  {
   "property": "C103",
   "status": "partial",
   "theorems": [
    "Verif.Pay.C103_read",
    "Verif.Pay.C103_backed",
    "Verif.Pay.C103_accepted_partial",
    "Verif.Pay.C103_false_empty",
    "Verif.Pay.C103_false_index"
   ],
   "note": "Proved except for BEEFs that cannot be used: these are read as an empty payment, which is accepted (C103_false_empty), or lead to undefined behaviour (C103_false_index)."
  },
  {
   "property": "C104",
   "status": "proved",
   "theorems": [
    "Verif.Tsc.C104_validated_iff",
    "Verif.Tsc.C104_chain"
   ],
   "note": ""
  },
  {
   "property": "C105",
   "status": "partial",
   "theorems": [
    "Verif.Pay.C105_roundtrip_partial",
    "Verif.Pay.C105_backed_partial",
    "Verif.Pay.C105_false_several",
    "Verif.Pay.C105_false_unknown",
    "Verif.Pay.C105_false_id"
   ],
   "note": "Holds for payments of one transaction, with a database that has the headers. Payments of several transactions are refused by an exception, a header the database does not have is undefined behaviour, and bytes after a transaction change the id it is filed under."
  },
  {
   "property": "C106",
   "status": "partial",
   "theorems": [
    "Verif.Pay.C106_roundtrip_partial",
    "Verif.Pay.C106_refused",
    "Verif.Pay.C106_false_malformed",
    "Verif.Pay.C106_false_included"
   ],
   "note": "Holds for envelopes whose proofs name their transactions by id. A proof that includes the transaction makes the envelope unreadable, and what is read from malformed JSON is the empty envelope, which is valid."
  },
  {
   "property": "C107",
   "status": "partial",
   "theorems": [
    "Verif.Boost.C107_puzzle",
    "Verif.Boost.C107_redeems_partial",
    "Verif.Boost.C107_false_target"
   ],
   "note": "False of targets with an exponent below 3 or above 32, which the output script refuses although the proof is valid (C94). Signing is a parameter (Ecdsa)."
  },
  {
   "property": "C108",
   "status": "partial",
   "theorems": [
    "Verif.Boost.C108_made_partial",
    "Verif.Boost.C108_added",
    "Verif.Boost.C108_false_script",
    "Verif.Boost.C108_false_equal"
   ],
   "note": "Missing: that all outputs have the script of the candidate, which is false: it is taken from the first output and the others are not checked; and that equal candidates hold the same outputs, which is false: they are not compared."
  },
  {
   "property": "C109",
   "status": "partial",
   "theorems": [
    "Verif.Stratum.C109_answers_partial",
    "Verif.Stratum.C109_ids_partial",
    "Verif.Stratum.C109_false_same_id",
    "Verif.Stratum.C109_false_early",
    "Verif.Stratum.C109_false_wrap",
    "Verif.Stratum.C109_dispatch"
   ],
   "note": "Proved where no request is sent while another waits to be sent; false otherwise."
  },
  {
   "property": "C11",
   "status": "partial",
   "theorems": [
    "Verif.Script.C11_built_pushes_minimal_partial",
    "Verif.Script.C11_not_minimal",
    "Verif.Script.C11_minimal_is_built"
   ],
   "note": "false of the code for strings of 256 and 65536 bytes (off by one in is_minimal_push); proved for all other lengths, with the converse"
  },
  {
   "property": "C110",
   "status": "partial",
   "theorems": [
    "Verif.Stratum.C110_requests",
    "Verif.Stratum.C110_subscribe_iff",
    "Verif.Stratum.C110_answer_partial",
    "Verif.Stratum.C110_false_thrown",
    "Verif.Stratum.C110_false_nameless",
    "Verif.Stratum.C110_false_size",
    "Verif.Stratum.C110_false_same",
    "Verif.Stratum.C110_notifications_partial",
    "Verif.Stratum.C110_false_notifications"
   ],
   "note": "Proved for logins, subscriptions to methods with names, whole difficulties, extra nonces and messages; false for the rest."
  },
  {
   "property": "C111",
   "status": "partial",
   "theorems": [
    "Verif.Stratum.C111_params",
    "Verif.Stratum.C111_valid",
    "Verif.Stratum.C111_rolling_iff",
    "Verif.Stratum.C111_requests_partial",
    "Verif.Stratum.C111_config_partial",
    "Verif.Stratum.C111_results_partial",
    "Verif.Stratum.C111_false_requests",
    "Verif.Stratum.C111_false_extensions",
    "Verif.Stratum.C111_false_config",
    "Verif.Stratum.C111_false_names",
    "Verif.Stratum.C111_answer",
    "Verif.Stratum.C111_false_accept",
    "Verif.Stratum.C111_false_valid",
    "Verif.Stratum.C111_false_answered"
   ],
   "note": "The list that is sent is read as written. Parameters are written under their own name twice, so that requests with parameters are refused by the reader; answers are read as written exactly if only accepted extensions have parameters and no name has a dot. Checking that everything was answered always fails."
  },
  {
   "property": "C112",
   "status": "partial",
   "theorems": [
    "Verif.Stratum.C112_defined",
    "Verif.Stratum.C112_authorized_partial",
    "Verif.Stratum.C112_counts",
    "Verif.Stratum.C112_false_configure",
    "Verif.Stratum.C112_false_version",
    "Verif.Stratum.C112_false_requests"
   ],
   "note": "Authorisation and share counts hold for every history. Every answer to a configure request that asked for anything is an exception, and a request for the version is answered twice and then an exception."
  },
  {
   "property": "C113",
   "status": "partial",
   "theorems": [
    "Verif.Keys.C113_path",
    "Verif.Keys.C113_coins",
    "Verif.Keys.C113_addresses_partial",
    "Verif.Keys.C113_sources_partial",
    "Verif.Keys.C113_begins",
    "Verif.Keys.C113_seed",
    "Verif.Keys.C113_false_hardened",
    "Verif.Keys.C113_false_source",
    "Verif.Keys.C113_false_accounts",
    "Verif.Keys.C113_false_repeated",
    "Verif.Keys.C113_false_seed"
   ],
   "note": "The paths are standard, and addresses agree whenever the derivations are the usual ones. From index 2^31 on all addresses found with the public key are one that nobody has the key of, account numbers from 2^31 on are those 2^31 less, keys that are passed over are delivered twice, and seeds are not checked."
  },
  {
   "property": "C114",
   "status": "partial",
   "theorems": [
    "Verif.Stratum.C114_header",
    "Verif.Stratum.C114_same",
    "Verif.Stratum.C114_accepted_partial",
    "Verif.Stratum.C114_solved",
    "Verif.Stratum.C114_mined",
    "Verif.Stratum.C114_puzzle",
    "Verif.Stratum.C114_false_mask",
    "Verif.Stratum.C114_false_job",
    "Verif.Stratum.C114_false_size",
    "Verif.Stratum.C114_false_rolling"
   ],
   "note": "The header, and when each of the two ways of judging a share accepts it, are characterised for all inputs, and mined shares are accepted. False: the agreed version mask is used the wrong way round, neither way looks at the length of the extra nonce or at the worker's name, the way by jobs does not look at the job id, and a puzzle loses its mask and the position of its path."
  },
  {
   "property": "C115",
   "status": "partial",
   "theorems": [
    "Verif.Bumps.C115_root",
    "Verif.Bumps.C115_extract",
    "Verif.Bumps.C115_branch",
    "Verif.Bumps.C115_sum_partial",
    "Verif.Bumps.C115_two_partial",
    "Verif.Bumps.C115_map_partial",
    "Verif.Bumps.C115_order_false",
    "Verif.Bumps.C115_height_false",
    "Verif.Bumps.C115_levels_undefined",
    "Verif.Bumps.C115_empty_false"
   ],
   "note": "Two branches in any order, or any number in the order of the block, are merged as they should be, and so are any two BUMPs of the block whose common positions are the upper ones of both at each level; the code compares descending lists by the rule for ascending ones, so that three branches in another order give a BUMP without a root; different heights give an empty BUMP without an error, and different numbers of levels are undefined"
  },
  {
   "property": "C116",
   "status": "partial",
   "theorems": [
    "Verif.Pay.C116_met",
    "Verif.Pay.C116_transactions",
    "Verif.Pay.C116_ordered",
    "Verif.Pay.C116_bumps_partial",
    "Verif.Pay.C116_validated_partial",
    "Verif.Pay.C116_roundtrip_partial",
    "Verif.Pay.C116_unused_false",
    "Verif.Pay.C116_twice_false",
    "Verif.Pay.C116_single_false",
    "Verif.Pay.C116_order_false"
   ],
   "note": "Transactions, their order and their references are proved for every proof. BUMPs, validation and reading back are proved if the transactions of one block are met in the order of the block or are at most two, and reading back also needs every unconfirmed transaction of the proof to be spent. The code fails without these: three transactions of one block met out of order get a BUMP without a root; an unspent transaction of the proof becomes part of the payment; the only transaction of a block gets a BUMP that is not valid; a payment that is also in the proof gives a BEEF that is not valid."
  },
  {
   "property": "C117",
   "status": "partial",
   "theorems": [
    "Verif.Pay.C117_written_iff",
    "Verif.Pay.C117_roundtrip_partial",
    "Verif.Pay.C117_read_standard",
    "Verif.Pay.C117_order",
    "Verif.Pay.C117_false_flag",
    "Verif.Pay.C117_false_empty",
    "Verif.Pay.C117_false_missing",
    "Verif.Pay.C117_false_negative"
   ],
   "note": "when a BUMP is written, what is read (valid, in order) and that the order of a level does not matter are proved for all; the round trip for BUMPs with at least one level, the three flags there are, and levels in order. Without that it is false: a flag that is none of the three, which bytes can have, is lost; a BUMP without levels is written but not read; a node without a hash has undefined behaviour; a negative position is accepted"
  },
  {
   "property": "C118",
   "status": "partial",
   "theorems": [
    "Verif.Pay.C118_written_iff",
    "Verif.Pay.C118_injective_partial",
    "Verif.Pay.C118_false_flag"
   ],
   "note": "when a BEEF is written is proved for all; that the JSON determines it, for BEEFs with standard BUMPs; two BEEFs that differ only in a flag that is none of the three have the same JSON"
  },
  {
   "property": "C119",
   "status": "partial",
   "theorems": [
    "Verif.Pay.Mapi.C119_read_iff",
    "Verif.Pay.Mapi.C119_policy_iff",
    "Verif.Pay.Mapi.C119_roundtrip_partial",
    "Verif.Pay.Mapi.C119_false_negative",
    "Verif.Pay.Mapi.C119_false_policy"
   ],
   "note": "What is read is exactly what the JSON says. The round trip holds of valid quotes without negative fees; valid quotes with one are read as the empty quote, and policy quotes are always read without fee quote and callbacks."
  },
  {
   "property": "C12",
   "status": "partial",
   "theorems": [
    "Verif.Script.C12_push_size_partial",
    "Verif.Script.C12_push_size_wrong"
   ],
   "note": "false of the code for strings of 75, 255 and 65535 bytes; proved for all other lengths"
  },
  {
   "property": "C120",
   "status": "partial",
   "theorems": [
    "Verif.Pay.Mapi.C120_read_partial",
    "Verif.Pay.Mapi.C120_query_partial",
    "Verif.Pay.Mapi.C120_submitted_partial",
    "Verif.Pay.Mapi.C120_many_partial",
    "Verif.Pay.Mapi.C120_query_written",
    "Verif.Pay.Mapi.C120_status_written",
    "Verif.Pay.Mapi.C120_query_status",
    "Verif.Pay.Mapi.C120_many_written",
    "Verif.Pay.Mapi.C120_conflict",
    "Verif.Pay.Mapi.C120_false_written",
    "Verif.Pay.Mapi.C120_false_undefined",
    "Verif.Pay.Mapi.C120_false_conflict",
    "Verif.Pay.Mapi.C120_false_lost",
    "Verif.Pay.Mapi.C120_false_answers"
   ],
   "note": "Exactly when a status, and each kind of answer, is read is proved. False: no status that is written is read back, a status without resultDescription is undefined, only the first conflict is checked, answers lose the status, answers that are written are read as empty or undefined."
  },
  {
   "property": "C121",
   "status": "partial",
   "theorems": [
    "Verif.Pay.Mapi.C121_call_iff_partial",
    "Verif.Pay.Mapi.C121_false_unsigned",
    "Verif.Pay.Mapi.C121_false_response",
    "Verif.Pay.Mapi.C121_false_envelope"
   ],
   "note": "Exactly which answers a call gives is proved. False: answers without signature are given, no response that is read holds anything of what was sent, and SPV envelopes with responses are never read."
  },
  {
   "property": "C122",
   "status": "partial",
   "theorems": [
    "Verif.Pay.Mapi.C122_params",
    "Verif.Pay.Mapi.C122_submit_partial",
    "Verif.Pay.Mapi.C122_submit_many",
    "Verif.Pay.Mapi.C122_body",
    "Verif.Pay.Mapi.C122_false_flags"
   ],
   "note": "All but the last part is proved; booleans are sent as the text of a number."
  },
  {
   "property": "C123",
   "status": "partial",
   "theorems": [
    "Verif.Pay.Arc.C123_valid_iff",
    "Verif.Pay.Arc.C123_health",
    "Verif.Pay.Arc.C123_status_partial",
    "Verif.Pay.Arc.C123_policy_partial",
    "Verif.Pay.Arc.C123_error",
    "Verif.Pay.Arc.C123_error_iff",
    "Verif.Pay.Arc.C123_false_content",
    "Verif.Pay.Arc.C123_false_fee",
    "Verif.Pay.Arc.C123_false_undefined",
    "Verif.Pay.Arc.C123_false_conflict",
    "Verif.Pay.Arc.C123_false_error"
   ],
   "note": "Exactly which responses are valid, and what is read where the body is JSON, is proved. False: responses that are not as documented are valid and to read them is undefined, fees in a policy are not checked, with most error codes anything is valid, to ask for the error never ends."
  },
  {
   "property": "C124",
   "status": "partial",
   "theorems": [
    "Verif.Pay.Arc.C124_meets",
    "Verif.Pay.Arc.C124_satisfies_partial",
    "Verif.Pay.Arc.C124_counted",
    "Verif.Pay.Arc.C124_false_satisfied",
    "Verif.Pay.Arc.C124_false_sigops"
   ],
   "note": "A transaction that meets a policy satisfies it, and exactly which ones satisfy it is proved for rates of at most 2^53 satoshis (the comparison is of doubles); false in the other direction: the whole fee is compared with that for one byte, and signatures are counted as none."
  },
  {
   "property": "C125",
   "status": "proved",
   "theorems": [
    "Verif.Pay.Arc.C125_headers",
    "Verif.Pay.Arc.C125_header_iff",
    "Verif.Pay.Arc.C125_timeout",
    "Verif.Pay.Arc.C125_submit",
    "Verif.Pay.Arc.C125_submit_txs",
    "Verif.Pay.Arc.C125_content",
    "Verif.Pay.Arc.C125_status",
    "Verif.Pay.Arc.C125_paths"
   ],
   "note": "How the data library writes JSON and HTTP is not modelled."
  },
  {
   "property": "C126",
   "status": "partial",
   "theorems": [
    "Verif.Tsc.C126_valid_iff",
    "Verif.Tsc.C126_roundtrip_partial",
    "Verif.Tsc.C126_roundtrip_tx",
    "Verif.Tsc.C126_read_valid",
    "Verif.Tsc.C126_false_short",
    "Verif.Tsc.C126_false_missing",
    "Verif.Tsc.C126_false_header"
   ],
   "note": "The round trip is proved for proofs without a transaction or with one of more than 32 bytes. False: a transaction of 32 bytes is read as an id, a target that is missing is undefined although the JSON is valid, an unreadable header becomes the header of zeros."
  },
  {
   "property": "C127",
   "status": "partial",
   "theorems": [
    "Verif.Tsc.C127_asked",
    "Verif.Tsc.C127_block_hash_partial",
    "Verif.Tsc.C127_paths",
    "Verif.Tsc.C127_false_block_hash",
    "Verif.Tsc.C127_false_included"
   ],
   "note": "Proved of the type of the target, the header, the Merkle root and the paths, and of the block hash where the type of the target is given. False: the block hash is not found where the type is left out, and a transaction is never found to be included."
  },
  {
   "property": "C128",
   "status": "partial",
   "theorems": [
    "Verif.Merkle.C128_valid_iff",
    "Verif.Merkle.C128_made_partial",
    "Verif.Merkle.C128_made_valid",
    "Verif.Merkle.C128_false_tall"
   ],
   "note": "Which trees are valid is proved exactly. They are the trees made from lists but for trees that are higher than their width asks for: every valid tree with one more node on top that hashes its value twice is valid too."
  },
  {
   "property": "C129",
   "status": "partial",
   "theorems": [
    "Verif.Merkle.C129_tree",
    "Verif.Merkle.C129_server_partial",
    "Verif.Merkle.C129_empty",
    "Verif.Merkle.C129_false_tall"
   ],
   "note": "Proved of all trees that are made from leaves; false for valid trees that are higher than their width asks for, where the server is written past its end."
  },
  {
   "property": "C13",
   "status": "proved",
   "theorems": [
    "Verif.Script.C13_decompile_compile",
    "Verif.Script.C13_compile_decompile"
   ],
   "note": ""
  },
  {
   "property": "C130",
   "status": "partial",
   "theorems": [
    "Verif.Script.C130_make_iff_partial",
    "Verif.Script.C130_chosen",
    "Verif.Script.C130_flags",
    "Verif.Script.C130_profiles",
    "Verif.Script.C130_genesis",
    "Verif.Script.C130_false_chronicle",
    "Verif.Script.C130_false_chronicle_script",
    "Verif.Script.C130_false_memory",
    "Verif.Script.C130_false_size"
   ],
   "note": "Which limits are accepted and chosen is proved. False: with the rules of Chronicle the limits of before Genesis are fixed again, the policy limit of memory is not used, and no limit of the size of scripts is kept. That the number of operations is limited is C18; the limits of stacks before Genesis are C16."
  },
  {
   "property": "C131",
   "status": "proved",
   "theorems": [
    "Verif.Script.C131_unique",
    "Verif.Script.C131_exists",
    "Verif.Script.C131_push",
    "Verif.Script.C131_not_minimal"
   ],
   "note": "The last theorem shows that minimality is needed. How the data library writes hexadecimal is assumed."
  },
  {
   "property": "C132",
   "status": "partial",
   "theorems": [
    "Verif.SPV.C132_branch_iff",
    "Verif.SPV.C132_order_partial",
    "Verif.SPV.C132_strict",
    "Verif.SPV.C132_false_confirmed",
    "Verif.SPV.C132_false_null"
   ],
   "note": "Proved of proofs without null pointers in which a transaction has one tree, unless both transactions are confirmed: these are always equivalent, since a header is compared with itself."
  },
  {
   "property": "C133",
   "status": "partial",
   "theorems": [
    "Verif.Work.C133_largest_partial",
    "Verif.Work.C133_divided_partial",
    "Verif.Work.C133_false_power",
    "Verif.Work.C133_false_small",
    "Verif.Work.C133_false_zero"
   ],
   "note": "Proved of quotients above 65536 that are not powers of 256. False otherwise: a power of 256, as with difficulty 65535, gives the target zero, and a smaller quotient the target 1; with difficulty zero the loop does not end. How the quotient is rounded is a parameter of the first theorem and modelled in the second; all later operations on it are exact."
  },
  {
   "property": "C134",
   "status": "partial",
   "theorems": [
    "Verif.C134_read_iff",
    "Verif.C134_construct_iff",
    "Verif.C134_rewritten_iff_partial",
    "Verif.C134_one",
    "Verif.C134_false_one_form",
    "Verif.C134_false_marker",
    "Verif.C134_false_plain"
   ],
   "note": "the exact form is proved; that each transaction has one form is false (longer counts), and the bytes that mark an extended transaction are not looked at"
  },
  {
   "property": "C135",
   "status": "partial",
   "theorems": [
    "Verif.Tsc.C135_read_iff_partial",
    "Verif.Tsc.C135_asked",
    "Verif.Tsc.C135_otherwise",
    "Verif.Tsc.C135_written",
    "Verif.Tsc.C135_false_included",
    "Verif.Tsc.C135_false_composite"
   ],
   "note": "the exact form is proved; proofs with the transaction are refused and proofs that say that they are composite are accepted, both against the standard that the file names"
  },
  {
   "property": "C136",
   "status": "partial",
   "theorems": [
    "Verif.Pay.C136_bump_iff",
    "Verif.Pay.C136_beef_iff_partial",
    "Verif.Pay.C136_order",
    "Verif.Pay.C136_false_one_form"
   ],
   "note": "the exact form is proved; that there is one form for each is false. The order of nodes at the same place is that of the data library, as assumed for ordst"
  },
  {
   "property": "C137",
   "status": "partial",
   "theorems": [
    "Verif.Chain.C137_made_iff",
    "Verif.Chain.C137_output",
    "Verif.Chain.C137_not_output",
    "Verif.Chain.C137_value",
    "Verif.Chain.C137_transactions_iff",
    "Verif.Chain.C137_root_partial",
    "Verif.Chain.C137_false_script",
    "Verif.Chain.C137_false_root"
   ],
   "note": "false for the script of an output that is cut off, which is not checked against the bytes left, and for the root with longer counts"
  },
  {
   "property": "C138",
   "status": "partial",
   "theorems": [
    "Verif.Sv.C138_below_iff",
    "Verif.Sv.C138_uniform",
    "Verif.Sv.C138_int",
    "Verif.Sv.C138_fresh_partial",
    "Verif.Sv.C138_defined",
    "Verif.Sv.C138_defined_partial",
    "Verif.Sv.C138_false_int",
    "Verif.Sv.C138_false_unseeded",
    "Verif.Sv.C138_false_zero"
   ],
   "note": "False for negative bounds of GetRandInt, for the bound zero of randrange, and for randbytes of a context that has not been seeded, which uses the generator before it has a key."
  },
  {
   "property": "C139",
   "status": "partial",
   "theorems": [
    "Verif.Sv.C139_system_partial",
    "Verif.Sv.C139_hardware_partial",
    "Verif.Sv.C139_strong_partial",
    "Verif.Sv.C139_history_partial",
    "Verif.Sv.C139_sanity_iff",
    "Verif.Sv.C139_false_apple",
    "Verif.Sv.C139_false_hardware",
    "Verif.Sv.C139_false_uninitialized",
    "Verif.Sv.C139_false_negative"
   ],
   "note": "False on Apple systems without getentropy (dangling else), for uses of rdrand of which only the last is checked, for negative sizes, and, on x86, wherever RandomInit has not been called."
  },
  {
   "property": "C14",
   "status": "partial",
   "theorems": [
    "Verif.Script.C14_counter_agrees",
    "Verif.Script.C14_counter_in_bounds_partial",
    "Verif.Script.C14_counter_out_of_bounds"
   ],
   "note": "agreement proved; the in-bounds half is false for a PUSHDATA4 announcing 2^32-5 bytes or more (32-bit wrap) and proved for all other scripts"
  },
  {
   "property": "C140",
   "status": "partial",
   "theorems": [
    "Verif.Stratum.C140_difficulty",
    "Verif.Stratum.C140_job",
    "Verif.Stratum.C140_extranonce_partial",
    "Verif.Stratum.C140_refused",
    "Verif.Stratum.C140_false_extranonce",
    "Verif.Stratum.C140_false_mask",
    "Verif.Stratum.C140_false_undefined",
    "Verif.Stratum.C140_false_server"
   ],
   "note": "False for version masks, which no client ever learns and some of which are undefined behaviour, for extra nonces that are not eight digits, which are taken for zero, and for everything that a server session sends, since notifications are not made as objects."
  },
  {
   "property": "C141",
   "status": "partial",
   "theorems": [
    "Verif.Stratum.C141_version_partial",
    "Verif.Stratum.C141_answers",
    "Verif.Stratum.C141_false_error",
    "Verif.Stratum.C141_false_twice"
   ],
   "note": "False of errors that have text as a result, which are taken for versions, and of clients of the library, which answer with the version and with an error."
  },
  {
   "property": "C142",
   "status": "partial",
   "theorems": [
    "Verif.Keys.Lazily.C142_given",
    "Verif.Keys.Lazily.C142_each_once",
    "Verif.Keys.Lazily.C142_after_first_partial",
    "Verif.Keys.Lazily.C142_false_conflict",
    "Verif.Keys.Lazily.C142_false_two"
   ],
   "note": "False: two threads that use keys for the first time at once race, each can make a context, and all but one of them are lost. Proved for every order in which one use is over before the others begin; for all orders, that every thread is given a context that was made, and that no thread makes two."
  },
  {
   "property": "C143",
   "status": "partial",
   "theorems": [
    "Verif.Keys.C143_reads",
    "Verif.Keys.C143_round_trip_partial",
    "Verif.Keys.C143_raw",
    "Verif.Keys.C143_false_round_trip",
    "Verif.Keys.C143_false_signature",
    "Verif.Keys.C143_false_der",
    "Verif.Keys.C143_false_directive"
   ],
   "note": "False: the numbers are written without the marks of a signature and with a length that counts them, so that nearly none are read back, signatures are read as other numbers, and the directive of a signature made of numbers is always zero. Proved exactly what is read and which numbers are read back, and that a signature of bytes and a directive gives them back."
  },
  {
   "property": "C144",
   "status": "partial",
   "theorems": [
    "Verif.P2p.C144_determines",
    "Verif.P2p.C144_size_partial",
    "Verif.P2p.C144_false_size",
    "Verif.P2p.C144_false_time",
    "Verif.P2p.C144_false_port",
    "Verif.P2p.C144_address_partial",
    "Verif.P2p.C144_port",
    "Verif.P2p.C144_false_address",
    "Verif.P2p.C144_command"
   ],
   "note": "What is written determines what was told. False: the size reported is never that written, the time and the nonce take four bytes where the protocol has eight, the port has its lower byte first, and an address of four bytes is identified with one of sixteen. Proved the sizes written and when addresses and commands are kept."
  },
  {
   "property": "C145",
   "status": "partial",
   "theorems": [
    "Verif.SPV.C145_exactly",
    "Verif.SPV.C145_same",
    "Verif.SPV.C145_answers_partial",
    "Verif.SPV.C145_worth_partial",
    "Verif.SPV.C145_false_worth",
    "Verif.SPV.C145_false_null"
   ],
   "note": "False: the digests of paths are not compared, so that a proof that shows a payment to be good is equal to one that does not; and a null pointer is dereferenced. Proved exactly when proofs are equal, that equality is an equivalence, that there is an answer if no pointer is null and that equal proofs whose paths lead to the roots of their headers are worth the same."
  },
  {
   "property": "C146",
   "status": "partial",
   "theorems": [
    "Verif.Keys.C146_places",
    "Verif.Keys.C146_distinct",
    "Verif.Keys.C146_pin_partial",
    "Verif.Keys.C146_pin_distinct",
    "Verif.Keys.C146_electrum_partial",
    "Verif.Keys.C146_false_language",
    "Verif.Keys.C146_false_pin",
    "Verif.Keys.C146_false_electrum"
   ],
   "note": "The places and seeds are proved for accounts below 2^31. False: a PIN that begins with zero cannot be given, phrases in Japanese have no seed, and for Electrum SV the passphrase and the words run into each other. Proved exactly which PINs can be given, and that Electrum SV seeds are distinct if the word electrum is not in the words."
  },
  {
   "property": "C147",
   "status": "partial",
   "theorems": [
    "Verif.Script.C147_left",
    "Verif.Script.C147_right_partial",
    "Verif.Script.C147_false_right",
    "Verif.Script.C147_cat",
    "Verif.Script.C147_split",
    "Verif.Script.C147_bits",
    "Verif.Script.C147_not",
    "Verif.Script.C147_truth"
   ],
   "note": "False: of a text, right gives the last characters only if no more than half of it is asked for. The rest is proved. left and right of byte strings rest on the data library and are not modelled."
  },
  {
   "property": "C148",
   "status": "partial",
   "theorems": [
    "Verif.Compare.C148_outpoints",
    "Verif.Compare.C148_leaves",
    "Verif.Compare.C148_orders_partial",
    "Verif.Compare.C148_false_orders",
    "Verif.Compare.C148_proofs_partial",
    "Verif.Compare.C148_false_proofs",
    "Verif.Compare.C148_boost_partial",
    "Verif.Compare.C148_false_boost",
    "Verif.Compare.C148_beef_partial",
    "Verif.Compare.C148_false_beef",
    "Verif.Compare.C148_subscribed_partial",
    "Verif.Compare.C148_false_subscribed"
   ],
   "note": "True of references to outputs and of Merkle leaves. False: headers, Boost outputs, paths, branches and BUMP nodes are ordered by a part only; the order of Merkle proofs is not transitive; equality of Boost proofs leaves out signature and key, that of BEEFs the version, that of subscriptions the method. What each of them does compare is proved exactly; proofs that are valid or of one root can be sorted."
  },
  {
   "property": "C149",
   "status": "partial",
   "theorems": [
    "Verif.Keys.C149_compressed_bytes",
    "Verif.Keys.C149_compress",
    "Verif.Keys.C149_decompress_partial",
    "Verif.Keys.C149_false_decompress",
    "Verif.Keys.C149_not_a_key",
    "Verif.Keys.C149_equal_sound",
    "Verif.Keys.C149_equal_partial",
    "Verif.Keys.C149_false_equal",
    "Verif.Keys.C149_public",
    "Verif.Keys.C149_x_partial",
    "Verif.Keys.C149_false_x",
    "Verif.Keys.C149_false_y"
   ],
   "note": "True of the two standard forms, except for coordinates. False: a key in the hybrid form is valid, is not changed by decompressing and is equal to neither standard form; the first coordinate is given with its bytes turned around, and asking for the second one reads memory that was freed. The forms that libsecp256k1 reads and writes are a parameter."
  },
  {
   "property": "C15",
   "status": "proved",
   "theorems": [
    "Verif.Script.C15_terminates",
    "Verif.Script.C15_terminates_bytes"
   ],
   "note": ""
  },
  {
   "property": "C150",
   "status": "partial",
   "theorems": [
    "Verif.Boost.C150_output_partial",
    "Verif.Boost.C150_false_version",
    "Verif.Boost.C150_other",
    "Verif.Boost.C150_input",
    "Verif.Boost.C150_solution_partial",
    "Verif.Boost.C150_false_solution"
   ],
   "note": "The version of every script is the number of its type, 1 or 2, whatever its category; the solution that is given has no general purpose bits, so the header that was worked on cannot be made from it. All other members are proved to be given back."
  },
  {
   "property": "C151",
   "status": "partial",
   "theorems": [
    "Verif.Pay.C151_least_partial",
    "Verif.Pay.C151_order",
    "Verif.Pay.C151_near_partial",
    "Verif.Pay.C151_thrown",
    "Verif.Pay.C151_held",
    "Verif.Pay.C151_false_less",
    "Verif.Pay.C151_false_ub"
   ],
   "note": "Exact while satoshis times size is at most 2^53; beyond, within one part in 2^50. False there: less is calculated than pays, and a result that does not fit is converted, which is undefined. The order is proved of all rates and sizes. double is modelled as rounding to 53 digits (Core/Double)."
  },
  {
   "property": "C152",
   "status": "partial",
   "theorems": [
    "Verif.Work.C152_order",
    "Verif.Work.C152_back_partial",
    "Verif.Work.C152_number",
    "Verif.Work.C152_profit",
    "Verif.Work.C152_false_back",
    "Verif.Work.C152_false_power"
   ],
   "note": "Difficulties order targets exactly as they should. Going to a difficulty and back gives the target or the next one below, and not always the target itself: 0x1d00b5df becomes 0x1d00b5de, and powers of 256 become zero."
  },
  {
   "property": "C153",
   "status": "partial",
   "theorems": [
    "Verif.Stratum.C153_remembered",
    "Verif.Stratum.C153_exactly_partial",
    "Verif.Stratum.C153_false_clock"
   ],
   "note": "For all histories: what is remembered is the last jobs without a gap, and only what had been too old is forgotten. Exactly the recent ones if the clock does not go back; false otherwise, since a newer time behind an older one stops the forgetting."
  },
  {
   "property": "C154",
   "status": "partial",
   "theorems": [
    "Verif.Boost.C154_valid_partial",
    "Verif.Boost.C154_size_partial",
    "Verif.Boost.C154_attained",
    "Verif.Boost.C154_false_nonce",
    "Verif.Boost.C154_false_key"
   ],
   "note": "The size is proved to bound the inputs, and to be attained, for second extra nonces of at most eight bytes; with general purpose bits 32 bytes are allowed and the size is exceeded. A valid puzzle is ready in the sense of C107 if its key is one of the curve as it is used and its script is written as the library writes it; valid keys that are not usable exist, as validity reads them in the other byte order."
  },
  {
   "property": "C155",
   "status": "partial",
   "theorems": [
    "Verif.Chain.C155_right",
    "Verif.Chain.C155_header_right",
    "Verif.Chain.C155_told_partial",
    "Verif.Chain.C155_false_dropped"
   ],
   "note": "Along all histories with right hashes told the reports are right. The hash told is reported only if one was already asked for; told to an object just loaded it is dropped, the check for a kept hash being the wrong way round."
  },
  {
   "property": "C156",
   "status": "partial",
   "theorems": [
    "Verif.Script.C156_instruction",
    "Verif.Script.C156_number",
    "Verif.Script.C156_no_error",
    "Verif.Script.C156_false_unknown",
    "Verif.Script.C156_error_partial",
    "Verif.Script.C156_false_error"
   ],
   "note": "proved of instructions that verification accepts; of errors false: that for script code that cannot be read is reported as unknown"
  },
  {
   "property": "C157",
   "status": "partial",
   "theorems": [
    "Verif.Pay.C157_proof",
    "Verif.Pay.C157_acceptable",
    "Verif.Pay.C157_accepted",
    "Verif.Pay.C157_received_partial",
    "Verif.Pay.C157_false_alone"
   ],
   "note": "making and checking are proved for all designs with keys that are valid for the curve and for secret::valid; through BEEF it is proved if each block has at least two transactions and those met are in the order of the block or at most two, and false otherwise (C157_false_alone, C116_order_false)"
  },
  {
   "property": "C158",
   "status": "partial",
   "theorems": [
    "Verif.Pay.C158_ready",
    "Verif.Pay.C158_spent_partial",
    "Verif.Pay.C158_false_refused"
   ],
   "note": "Proved whenever the derivations are the usual ones and the key derived is one that secret::valid accepts; false of other keys of the curve, for which the address is given out but nothing sent to it is ever redeemed"
  },
  {
   "property": "C159",
   "status": "partial",
   "theorems": [
    "Verif.Boost.C159_mined_partial",
    "Verif.Boost.C159_accepted_partial",
    "Verif.Boost.C159_false_target"
   ],
   "note": "Proved for targets other than zero with an exponent from 3 to 32. For other exponents the miner finds solutions with which nothing is redeemed: C159_false_target. Data of 256 or 65536 bytes are left out of the accepted part because the scripts written for them are not minimal."
  },
  {
   "property": "C16",
   "status": "proved",
   "theorems": [
    "Verif.Script.C16_pre_genesis_limits"
   ],
   "note": ""
  },
  {
   "property": "C160",
   "status": "partial",
   "theorems": [
    "Verif.SPV.C160_accepted_partial",
    "Verif.SPV.C160_alone_partial",
    "Verif.SPV.C160_false_again",
    "Verif.SPV.C160_false_varied"
   ],
   "note": "Exact for proofs in which a transaction has the same proof wherever it occurs, if a time limit that is not given a value is not before the upgrade (it is used for a transaction that is met again). False otherwise: C160_false_again, C160_false_varied."
  },
  {
   "property": "C161",
   "status": "partial",
   "theorems": [
    "Verif.Text.C161_english_partial",
    "Verif.Text.C161_generated_partial",
    "Verif.Text.C161_list",
    "Verif.Text.C161_false_japanese"
   ],
   "note": "Proved for English: bytes and letters agree for every text, and what is generated is valid. False for Japanese: no text at all is valid, because the text is cut at each byte of the Japanese space, of which the first begins every letter of the words."
  },
  {
   "property": "C162",
   "status": "partial",
   "theorems": [
    "Verif.Chain.C162_before_partial",
    "Verif.Chain.C162_exact",
    "Verif.Chain.C162_false_genesis"
   ],
   "note": "Proved before genesis for scripts below 2^31 bytes. False after: OP_RETURN outside of a conditional ends with success whatever the stack is, so that the empty script spends every such output whose instructions can be read and pass the check that is made of every script. C162_exact says when exactly scripts that only push do."
  },
  {
   "property": "C163",
   "status": "partial",
   "theorems": [
    "Verif.Script.C163_hash_partial",
    "Verif.Script.C163_spends_partial",
    "Verif.Script.C163_false_open",
    "Verif.Script.C163_false_verify",
    "Verif.Script.C163_false_code"
   ],
   "note": "False of the code: the script that is pushed is run before its hash is compared, nothing checks that its conditionals are closed and a branch that is not taken is skipped to the end of everything, so the unlocking script 03 51 00 63 (a push of the script 1 0 IF) spends every output that pays to a script hash, whatever the hash (C163_false_open). CHECKSIGVERIFY ends the evaluation before the comparison (C163_false_verify), and signatures are checked against the script followed by VERIFY, the push of the script and the locking script (C163_false_code). What holds: if the script pushed has no IF, NOTIF, RETURN, CHECKSIGVERIFY or CHECKMULTISIGVERIFY its hash must be the one named and it must end with a true value, and whoever satisfies the script with the right hash spends the output."
  },
  {
   "property": "C164",
   "status": "partial",
   "theorems": [
    "Verif.Script.C164_script_partial",
    "Verif.Pay.C164_signature",
    "Verif.Pay.C164_input_partial",
    "Verif.Script.C164_false_lock",
    "Verif.Script.C164_false_scriptHash"
   ],
   "note": "Proved for the twelve flags that demand something, the flag that allows fork ids and the four limits, for every script and, with the signature checks of the code, every input of every transaction (Pay.C164_input_partial). False for the flags for CHECKLOCKTIMEVERIFY and CHECKSEQUENCEVERIFY, which turn the check off (C164_false_lock), and for payments to script hashes (C164_false_scriptHash). Bound: twice the unlocking script and the locking script together below 2^31 bytes."
  },
  {
   "property": "C165",
   "status": "partial",
   "theorems": [
    "Verif.SPV.C165_in_block_partial",
    "Verif.SPV.C165_false_half",
    "Verif.SPV.C165_false_payment"
   ],
   "note": "False of the code for transactions of 64 bytes, as neither the length of paths nor the size of transactions is looked at: a transaction whose bytes are the ids of two neighbours counts as being in their block (C166_false_pair; C165_false_payment is a payment that is accepted with the output of such a transaction), and so does one whose id is half of the bytes of a transaction in the block (C165_false_half). Proved if neither the transaction nor any in the block has 64 bytes, whatever the length of the path."
  },
  {
   "property": "C166",
   "status": "partial",
   "theorems": [
    "Verif.SPV.C166_same_partial",
    "Verif.SPV.C166_false_twice",
    "Verif.SPV.C166_false_pair"
   ],
   "note": "False: the last of an odd number of transactions can be listed twice (C166_false_twice, for every hash function and list), and a transaction whose bytes are the ids of two has the root of these two (C166_false_pair). Proved for lists, of any lengths, that list nothing twice and hold no transaction of 64 bytes."
  },
  {
   "property": "C167",
   "status": "partial",
   "theorems": [
    "Verif.Script.C167_address_partial",
    "Verif.Script.C167_pubkey_partial",
    "Verif.Script.C167_bytes",
    "Verif.Pay.C167_signed_partial",
    "Verif.Script.C167_false_return",
    "Verif.Script.C167_false_stranger",
    "Verif.Pay.C167_false_thief"
   ],
   "note": "proved for unlocking scripts that only push, as the rules since Genesis demand; false of the code before Genesis and since Chronicle, where unlocking scripts may do more: a signature of any other key followed by CODESEPARATOR and CHECKSIGVERIFY, or RETURN alone, spends every payment to an address"
  },
  {
   "property": "C168",
   "status": "partial",
   "theorems": [
    "Verif.Script.C168_keys_partial",
    "Verif.Script.C168_last",
    "Verif.Pay.C168_owners",
    "Verif.Pay.C168_signed_partial",
    "Verif.Script.C168_false_others",
    "Verif.Pay.C168_false_first",
    "Verif.Script.C168_false_anyone",
    "Verif.Pay.C168_false_thief"
   ],
   "note": "proved: with an unlocking script that only pushes, spending takes signatures of w of the keys in order, and the owners of the last w keys do spend; false of the code: no other w owners can spend by the rules that demand null-fail, and before Genesis four bytes and no key spend any such output"
  },
  {
   "property": "C169",
   "status": "partial",
   "theorems": [
    "Verif.Pay.C169_address",
    "Verif.Pay.C169_pubkey",
    "Verif.Pay.C169_keys",
    "Verif.Pay.C169_scripts",
    "Verif.Pay.C169_false_untyped"
   ],
   "note": "the first part is proved; the last is false of the code: a directive without a type, 0x40, is accepted and covers no outputs"
  },
  {
   "property": "C17",
   "status": "proved",
   "theorems": [
    "Verif.Script.C17_memory_exact"
   ],
   "note": ""
  },
  {
   "property": "C170",
   "status": "proved",
   "theorems": [
    "Verif.Script.C170_free"
   ],
   "note": "for every configuration; lengths such that positions fit 31 bits"
  },
  {
   "property": "C171",
   "status": "partial",
   "theorems": [
    "Verif.Script.C171_front_partial",
    "Verif.Script.C171_harmless_partial",
    "Verif.Script.C171_refused_partial",
    "Verif.Script.C171_false_depth",
    "Verif.Script.C171_false_multisig",
    "Verif.Script.C171_false_clean"
   ],
   "note": "proved for scripts without DEPTH, CHECKMULTISIG and CHECKMULTISIGVERIFY; false for DEPTH by its nature, for CHECKMULTISIG because the signatures to remove are looked for at the bottom of the stack; a clean stack is not demanded when CHECKSIGVERIFY (or RETURN) ends the script"
  },
  {
   "property": "C172",
   "status": "partial",
   "theorems": [
    "Verif.Boost.C172_redeemed_partial",
    "Verif.Boost.C172_signed",
    "Verif.Boost.C172_miner",
    "Verif.Boost.C172_false_return"
   ],
   "note": "proved for unlocking scripts that push, which are all that the rules since Genesis allow, and for scripts whose sizes sum to less than 2^28 with memory to match; false where unlocking scripts may do more, as after Chronicle, where the one byte RETURN spends every Boost output; the exponent of the target must be from 3 to 32"
  },
  {
   "property": "C173",
   "status": "partial",
   "theorems": [
    "Verif.Script.C173_values_partial",
    "Verif.Script.C173_one_way",
    "Verif.Script.C173_fixed_partial",
    "Verif.Script.C173_false_script",
    "Verif.Script.C173_false_minimal"
   ],
   "note": "proved unless the output pays to the hash of a script and the rules make a difference there; then the way in which the script is pushed is part of what signatures are checked against, and minimal pushes are not demanded"
  },
  {
   "property": "C174",
   "status": "partial",
   "theorems": [
    "Verif.Pay.C174_changed_partial",
    "Verif.Pay.C174_same_partial",
    "Verif.Sig.C174_one_form",
    "Verif.Pay.C174_signer",
    "Verif.Pay.C174_false_forwarder",
    "Verif.Script.C174_false_separator",
    "Verif.Sig.C174_false_negative"
   ],
   "note": "proved for the rules since Genesis, with what libsecp256k1 does when it reads a signature as a hypothesis; false where unlocking scripts may do more than push, as before Genesis; the library's own checks take two forms of one signature and leave it to libsecp256k1 to refuse one"
  },
  {
   "property": "C175",
   "status": "proved",
   "theorems": [
    "Verif.Pay.C175_values",
    "Verif.Pay.C175_changed",
    "Verif.Pay.C175_same",
    "Verif.Pay.C175_one_signer"
   ],
   "note": "as stated, for the rules since Genesis, with what libsecp256k1 does when it reads a signature as a hypothesis (as in C174); the same is false before Genesis (C174_false_forwarder, C168_false_thief); that only the owners of the last keys can sign for several keys is C168"
  },
  {
   "property": "C176",
   "status": "partial",
   "theorems": [
    "Verif.SPV.C176_conserved_partial",
    "Verif.SPV.C176_received_partial",
    "Verif.SPV.C176_false_twice"
   ],
   "note": "false if an output is spent twice, which validation does not check even within one transaction; that transactions are filed under their ids is not checked either (C55)"
  },
  {
   "property": "C177",
   "status": "partial",
   "theorems": [
    "Verif.Pay.C177_agreed_partial",
    "Verif.Pay.C177_since_partial",
    "Verif.Pay.C177_false_stolen",
    "Verif.Pay.C177_false_forged"
   ],
   "note": "proved if no time of the genesis upgrade is given (the default); false if one is given, for then a header with an earlier time and the same Merkle root, at any target, lets anyone take every payment to an address in the block"
  },
  {
   "property": "C178",
   "status": "partial",
   "theorems": [
    "Verif.Pay.C178_agreed_partial",
    "Verif.Pay.C178_conserved_partial",
    "Verif.Pay.C178_false_twice"
   ],
   "note": "proved if no header of the database is from before the time of the genesis upgrade that is given, or none is given, and if no output is spent twice; false otherwise (C177_false_stolen, C178_false_twice)"
  },
  {
   "property": "C179",
   "status": "partial",
   "theorems": [
    "Verif.Pay.C179_owner_partial",
    "Verif.Pay.C179_whole_partial",
    "Verif.Pay.C179_payment_partial",
    "Verif.Pay.C179_false_address",
    "Verif.Pay.C179_false_key",
    "Verif.Pay.C179_false_keys",
    "Verif.Pay.C179_false_payment"
   ],
   "note": "proved for inputs that have an output of the same number, by the rules since the Genesis upgrade. False for all others: the digest for SINGLE is then zero, and everyone who has the public key can make a signature of the digest zero, with one unlocking script for all transactions and values"
  },
  {
   "property": "C18",
   "status": "proved",
   "theorems": [
    "Verif.Script.C18_operation_limit",
    "Verif.Script.C18_count_monotone",
    "Verif.Script.C18_verified_within_limit"
   ],
   "note": ""
  },
  {
   "property": "C180",
   "status": "partial",
   "theorems": [
    "Verif.SPV.C180_known",
    "Verif.SPV.C180_grows",
    "Verif.SPV.C180_reorganised_partial",
    "Verif.SPV.C180_mined_partial",
    "Verif.SPV.C180_false_root",
    "Verif.SPV.C180_false_mined"
   ],
   "note": "Growing databases: unconditional. Reorganisation: proved for chains without gaps and without two blocks of the same Merkle root or hash; false with the latter, since removing one header takes away the other's root. Proofs in time: proved for proofs in which a transaction has the same proof wherever it occurs; false otherwise, since what is not looked at in one place is looked at later"
  },
  {
   "property": "C181",
   "status": "partial",
   "theorems": [
    "Verif.Script.C181_evaluate_partial",
    "Verif.Pay.C181_payment_partial",
    "Verif.Script.C181_false_cut",
    "Verif.Pay.C181_false_thrown",
    "Verif.Pay.C181_false_undefined"
   ],
   "note": "Proved of scripts that do not end within the size of a push, under the rules before and since Genesis, and of payments with proofs of these in which nothing is left out and no sum overflows. False otherwise: a script that ends in PUSHDATA without a size throws an exception that nobody catches, and a payment with one, which needs no confirmed transaction, throws out of validate; a sum of outputs that does not fit is undefined."
  },
  {
   "property": "C182",
   "status": "partial",
   "theorems": [
    "Verif.Pay.C182_agreed_partial",
    "Verif.Pay.C182_since_partial",
    "Verif.Pay.C182_conserved_partial",
    "Verif.Pay.C182_false_forged"
   ],
   "note": "proved of envelopes whose transactions have no bytes after them, if no time of the upgrade is given or neither the headers of the database nor those in the envelope are from before it, and for the value if no output is spent twice; false otherwise: the header in the envelope is used and not the one of the database with the same root, so its time can be forged although every header of the database is from after the upgrade (see also C105_false_id, C178_false_twice)"
  },
  {
   "property": "C183",
   "status": "partial",
   "theorems": [
    "Verif.Alloc.C183_read_partial",
    "Verif.Alloc.C183_once_partial",
    "Verif.Alloc.C183_cut_partial",
    "Verif.Alloc.C183_slices_partial",
    "Verif.Alloc.C183_block_partial",
    "Verif.Alloc.C183_tsc",
    "Verif.Alloc.C183_same",
    "Verif.Alloc.C183_false_huge",
    "Verif.Alloc.C183_false_thrown",
    "Verif.Alloc.C183_false_slices"
   ],
   "note": "Proved of everything that is read without an error, of every part of something the library has written, and, whatever the bytes are, of all buffers but the last. False of other bytes: 50 bytes make the code ask for any number of bytes, and if there are not as many an exception leaves the constructors of transactions and of BEEFs, and for sizes over 2^63 that of blocks."
  },
  {
   "property": "C184",
   "status": "partial",
   "theorems": [
    "Verif.SPV.C184_once_partial",
    "Verif.SPV.C184_cost_partial",
    "Verif.SPV.C184_same",
    "Verif.SPV.C184_false_ladder",
    "Verif.SPV.C184_false_exponential"
   ],
   "note": "Proved where no transaction is spent by two inputs among those without confirmation, and the exact number of questions is given for every database. False otherwise: a chain of n transactions that each spend two outputs of the one before takes almost 3 * 2^n questions."
  },
  {
   "property": "C185",
   "status": "proved",
   "theorems": [
    "Verif.SPV.C185_all",
    "Verif.SPV.C185_bound",
    "Verif.SPV.C185_once",
    "Verif.SPV.C185_same"
   ],
   "note": "C185_all holds of every proof, as often as a transaction is in it. C185_bound and C185_once are about the distinct transactions, and suppose that no transaction depends on itself."
  },
  {
   "property": "C186",
   "status": "partial",
   "theorems": [
    "Verif.Pay.C186_once_partial",
    "Verif.Pay.C186_places_partial",
    "Verif.Pay.C186_false_exponential"
   ],
   "note": "Proved of proofs in which nothing is in two places; in general the envelope holds a transaction once for each place. False otherwise: with n layers of two transactions that each spend both of the layer before, 2n + 4 transactions make an envelope of more than 2^n."
  },
  {
   "property": "C187",
   "status": "partial",
   "theorems": [
    "Verif.Script.C187_recognised",
    "Verif.Script.C187_made",
    "Verif.Script.C187_spent_partial",
    "Verif.Script.C187_spends_partial",
    "Verif.Script.C187_false_redeem"
   ],
   "note": "Proved: what is recognised, that what is made is recognised, and that among scripts that only push exactly those spend it whose last value has the digest and that push something true before it. False of redeem: what it makes never spends the payment, as EQUALVERIFY leaves nothing on the stack. Missing: unlocking scripts that do more than push, see C167. The direction that something spends is for values of at most 75 bytes."
  },
  {
   "property": "C188",
   "status": "partial",
   "theorems": [
    "Verif.SPV.C188_same",
    "Verif.SPV.C188_height_partial",
    "Verif.SPV.C188_chain_ids",
    "Verif.SPV.C188_chain_valid",
    "Verif.SPV.C188_false_chain"
   ],
   "note": "Proved: the calls are nested no deeper than the longest chain of transactions that are not confirmed, and one more. False as stated: for every n there is a proof, valid under reasonable rules, that is validated with n + 1 calls open at one time, and whatever the rules are, as all of them are opened before anything is checked."
  },
  {
   "property": "C189",
   "status": "partial",
   "theorems": [
    "Verif.SPV.C189_trimmed",
    "Verif.SPV.C189_added",
    "Verif.SPV.C189_filed",
    "Verif.SPV.C189_order_partial",
    "Verif.SPV.C189_false_again",
    "Verif.SPV.C189_false_varied"
   ],
   "note": "Proved as stated, for every answer including undefined behaviour, of superfluous transactions and the order in which the proof has them. The order of the payment does not matter if the proof gives each transaction in one way and a time limit that is not given a value is not before the upgrade; false otherwise: C189_false_again, C189_false_varied."
  },
  {
   "property": "C19",
   "status": "partial",
   "theorems": [
    "Verif.Script.C19_step_defined_partial",
    "Verif.Script.C19_other_ops_defined",
    "Verif.Script.C19_evaluate_defined_partial",
    "Verif.Script.C19_undefined"
   ],
   "note": "false of the code: without the minimal-encoding flag LEFT, RIGHT and SUBSTR read outside their operand for a negative zero; proved for every step when the flag is set and for every other opcode without it"
  },
  {
   "property": "C190",
   "status": "partial",
   "theorems": [
    "Verif.Sig.C190_values_partial",
    "Verif.Sig.C190_defined_iff",
    "Verif.Sig.C190_signed",
    "Verif.Sig.C190_false_copy"
   ],
   "note": "Proved: for programs that end with all objects destroyed, exactly those are defined that copy nothing that has been asked for a digest, and these are given the right digests and leave nothing behind. False as stated: after a copy of an object that has been asked, both have the same pointers, and the memory is given back twice or read after it was given back."
  },
  {
   "property": "C191",
   "status": "partial",
   "theorems": [
    "Verif.Script.C191_same",
    "Verif.Script.C191_left_partial",
    "Verif.Script.C191_none_partial",
    "Verif.Script.C191_false_left"
   ],
   "note": "Proved: counting documents changes no answer; an evaluation without an error leaves none, any other at most one, and one that never comes to CHECKMULTISIG leaves none. False as stated: CHECKMULTISIG with a malformed signature leaves its document behind. A digest that throws an exception (C28) is not modelled here; it would leave one as well, in CHECKSIG too."
  },
  {
   "property": "C192",
   "status": "partial",
   "theorems": [
    "Verif.Script.C192_values_partial",
    "Verif.Script.C192_dangles",
    "Verif.Script.C192_false_shared",
    "Verif.Script.C192_false_dangling"
   ],
   "note": "Proved: programs that copy only interpreters that have halted see what they should, whatever they do. False as stated: a copy has the same stack as the original, so that a step of one is seen in the other, and it reads the script of the original, so that it cannot be stepped any more when the original has been destroyed."
  },
  {
   "property": "C193",
   "status": "partial",
   "theorems": [
    "Verif.Pay.C193_same",
    "Verif.Pay.C193_left_iff_partial",
    "Verif.Pay.C193_false_left"
   ],
   "note": "Proved: counting changes nothing in what is read, and the nodes in memory are those of the envelope exactly if no node that can be read is filed under something that is no transaction id, after entries that are all good. False as stated: such a node, with all that belongs to it, stays in memory for every way to write one. Exceptions thrown by the JSON library are not modelled."
  },
  {
   "property": "C194",
   "status": "partial",
   "theorems": [
    "Verif.Stratum.C194_said_iff",
    "Verif.Stratum.C194_apart",
    "Verif.Stratum.C194_refused",
    "Verif.Stratum.C194_read_partial",
    "Verif.Stratum.C194_false_code",
    "Verif.Stratum.C194_memory",
    "Verif.Stratum.C194_false_nameless",
    "Verif.Stratum.C194_false_memory"
   ],
   "note": "Proved: a code has a message exactly if it is one of the nineteen that have a name, a named code is told from all others by its message, refusals are read back, and a number of 32 bits is read as itself. False as stated: codes without a name share the empty message, to each code there is a larger number that a client reads as it, and what is no error is read by the constructor with the code that was in memory (never by way of a response)."
  },
  {
   "property": "C195",
   "status": "proved",
   "theorems": [
    "Verif.Script.C195_same",
    "Verif.Script.C195_limit",
    "Verif.Script.C195_instructions",
    "Verif.Script.C195_length",
    "Verif.Script.C195_unchecked",
    "Verif.Script.C195_needed"
   ],
   "note": "Proved for all scripts. C195_same: the counting machine gives the answers of the machine. C195_limit: the keys of CHECKMULTISIG are counted as operations before any is tried. C195_instructions: each key that is tried is removed from the stack by the same instruction, and an instruction adds at most three elements. C195_unchecked: the checks counted are those the answer depends on; C195_needed: as many as CHECKMULTISIG accepts have been made."
  },
  {
   "property": "C196",
   "status": "partial",
   "theorems": [
    "Verif.Script.C196_until_partial",
    "Verif.Script.C196_after_partial",
    "Verif.Script.C196_owner_partial",
    "Verif.Script.C196_opens",
    "Verif.Script.C196_false_flag",
    "Verif.Script.C196_false_return",
    "Verif.Script.C196_false_large"
   ],
   "note": "Proved where the flags for the two opcodes are not set, unlocking scripts only push and the number is positive and under 2^32. False as stated: with the flag set the lock has no effect (the test of the flag is inverted, C22), an unlocking script of RETURN spends the output where more than pushes are allowed (C79), and only 32 bits of the number are looked at. C196_opens is for payments to a public key."
  },
  {
   "property": "C197",
   "status": "partial",
   "theorems": [
    "Verif.Sig.C197_message",
    "Verif.Sig.C197_once_partial",
    "Verif.Sig.C197_single",
    "Verif.Sig.C197_exact",
    "Verif.Sig.C197_false_single",
    "Verif.Sig.C197_false_original"
   ],
   "note": "Proved for signatures with the fork id that are not for a single output, and exactly for those for all of the transaction. False as stated: the digest of a single output is not kept and is made again for every signature, and without the fork id all of the transaction is hashed for every signature, so that n signatures for n inputs take more than 41 n^2 bytes. The second round of each double hash is not counted. C195 bounds the number of signatures that are checked."
  },
  {
   "property": "C198",
   "status": "partial",
   "theorems": [
    "Verif.Script.C198_chosen_partial",
    "Verif.Script.C198_signed_partial",
    "Verif.Script.C198_false_anyone"
   ],
   "note": "False as stated: every payment whose script begins with IF is spent by the two bytes `1 0`, and with NOTIF by `1 1`, for all scripts, documents and rules, since a way that is not chosen is skipped together with all that follows it (C20). What holds: in contracts whose first way asks for what has a hash and for a signature, whoever chooses that way has shown both, and whatever the first way asks for before a signature, whoever chooses it has that signature for the whole script. Missing: first ways with conditionals of their own, and unlocking scripts that do more than push."
  },
  {
   "property": "C199",
   "status": "partial",
   "theorems": [
    "Verif.Script.C199_signed_partial",
    "Verif.Script.C199_separated_partial",
    "Verif.Script.C199_keys_partial",
    "Verif.Script.C199_false_if",
    "Verif.Script.C199_false_return",
    "Verif.Script.C199_false_second"
   ],
   "note": "Proved for all scripts that have none of IF, NOTIF, RETURN, CHECKSIGVERIFY and CHECKMULTISIGVERIFY before the key; if there is a CODESEPARATOR, the signature is for what follows the last one. Scripts that end with several keys and CHECKMULTISIG need good signatures of as many of them as have to sign, for the script without some values that whoever spends can choose (C90, C171). False as stated: after an IF, even in `IF ENDIF <key> CHECKSIG`, the check can be skipped by whoever spends (C198); a RETURN before it ends the script with success under the rules since genesis; and CHECKSIGVERIFY ends the script with success, so that of two keys only the first is asked. Missing: unlocking scripts that do more than push."
  },
  {
   "property": "C20",
   "status": "partial",
   "theorems": [
    "Verif.Script.C20_if_true_partial",
    "Verif.Script.C20_skipped_to_end",
    "Verif.Script.C20_false_if_ends",
    "Verif.Script.C20_false_of_code"
   ],
   "note": "false of the code: once a branch is skipped nothing leaves it again (ELSE and ENDIF are skipped too); proved: a taken IF without ELSE, and exactly what happens to a branch not taken"
  },
  {
   "property": "C200",
   "status": "proved",
   "theorems": [
    "Verif.Script.C200_hash",
    "Verif.Script.C200_key"
   ],
   "note": "For hashes and keys of 2 to 75 bytes. Nothing is asked of what follows, which may have conditionals, RETURN and separators. Scripts that do more than push are not unlocking scripts here; the rules since genesis refuse them."
  },
  {
   "property": "C21",
   "status": "partial",
   "theorems": [
    "Verif.Script.C21_verify",
    "Verif.Script.C21_equalverify",
    "Verif.Script.C21_numequalverify",
    "Verif.Script.C21_never_decide_partial",
    "Verif.Script.C21_checksigverify_decides",
    "Verif.Script.C21_false_of_signature_checks"
   ],
   "note": "false of the code for CHECKSIGVERIFY and CHECKMULTISIGVERIFY: success ends the script as verified; proved for the other three"
  },
  {
   "property": "C22",
   "status": "partial",
   "theorems": [
    "Verif.Script.C22_flag_set_is_nop",
    "Verif.Script.C22_locktime_enforced_when_unset_partial",
    "Verif.Script.C22_sequence_enforced_when_unset_partial",
    "Verif.Script.C22_check_locktime",
    "Verif.Script.C22_check_sequence",
    "Verif.Script.C22_flags_inverted",
    "Verif.Script.C22_operand_truncated"
   ],
   "note": "false of the code: the flag tests are inverted and the operand is truncated to 32 bits; proved: what the opcodes do for either setting of the flag, and what the comparison decides for operands below 2^32"
  },
  {
   "property": "C23",
   "status": "partial",
   "theorems": [
    "Verif.Script.observed_wf",
    "Verif.Script.C23_dup",
    "Verif.Script.C23_drop",
    "Verif.Script.C23_nip",
    "Verif.Script.C23_over",
    "Verif.Script.C23_rot",
    "Verif.Script.C23_swap",
    "Verif.Script.C23_tuck",
    "Verif.Script.C23_2drop",
    "Verif.Script.C23_2dup",
    "Verif.Script.C23_3dup",
    "Verif.Script.C23_2over",
    "Verif.Script.C23_2rot",
    "Verif.Script.C23_2swap",
    "Verif.Script.C23_ifdup",
    "Verif.Script.C23_depth",
    "Verif.Script.C23_toaltstack",
    "Verif.Script.C23_fromaltstack",
    "Verif.Script.C23_step",
    "Verif.Script.C23_pick_roll_shallow",
    "Verif.Script.C23_pick_roll_partial",
    "Verif.Script.C23_pick_negative_zero"
   ],
   "note": "all opcodes proved for every stack; PICK and ROLL exclude a negative zero operand (allowed when minimal encoding is not demanded), for which the code does not take the top element"
  },
  {
   "property": "C24",
   "status": "partial",
   "theorems": [
    "Verif.Script.C24_verified_iff_partial",
    "Verif.Script.C24_verified_iff_no_sig_verify",
    "Verif.Script.C24_sig_verify_wins",
    "Verif.Script.C24_checked_iff"
   ],
   "note": "false of the code because of CHECKSIGVERIFY and CHECKMULTISIGVERIFY; the exact characterisation is proved, and the stated one for runs that meet neither opcode"
  },
  {
   "property": "C25",
   "status": "partial",
   "theorems": [
    "Verif.Script.C25_shift_partial",
    "Verif.Script.C25_negative_refused",
    "Verif.Script.C25_all_zeros",
    "Verif.Script.C25_negative_zero"
   ],
   "note": "false of the code for a negative zero amount (possible when minimal encoding is not demanded); proved for every other amount"
  },
  {
   "property": "C26",
   "status": "partial",
   "theorems": [
    "Verif.Script.C26_cat",
    "Verif.Script.C26_split_partial",
    "Verif.Script.C26_split_then_cat",
    "Verif.Script.C26_cat_then_split",
    "Verif.Script.C26_negative_zero"
   ],
   "note": "SPLIT is false of the code for a negative zero position; everything else proved"
  },
  {
   "property": "C27",
   "status": "proved",
   "theorems": [
    "Verif.Sig.C27_none",
    "Verif.Sig.C27_single",
    "Verif.Sig.C27_anyone_can_pay",
    "Verif.Sig.C27_sequences"
   ],
   "note": "both schemes, message and digest"
  },
  {
   "property": "C28",
   "status": "proved",
   "theorems": [
    "Verif.Sig.C28_all_commits_everything",
    "Verif.Sig.C28_fork_id_commits",
    "Verif.Sig.C28_original_commits",
    "Verif.Sig.C28_original_index_open"
   ],
   "note": "the hash is assumed not to collide on the compared strings only; the second theorem covers every directive, the third the original scheme"
  },
  {
   "property": "C29",
   "status": "partial",
   "theorems": [
    "Verif.Sig.C29_hash_safe_partial",
    "Verif.Sig.C29_otherwise_message",
    "Verif.Sig.C29_write_reads_outside"
   ],
   "note": "proved for signature::hash (zero digest); false of sighash::write, which reads outside the outputs"
  },
  {
   "property": "C30",
   "status": "partial",
   "theorems": [
    "Verif.Merkle.C30_root",
    "Verif.Merkle.C30_proofs_partial",
    "Verif.Merkle.C30_index_false",
    "Verif.Merkle.C30_index_witness",
    "Verif.Merkle.C30_empty"
   ],
   "note": "proved for the proofs listed by a tree; false of the code for the proof asked by index, which holds the root itself; making a tree of no leaves is undefined"
  },
  {
   "property": "C31",
   "status": "proved",
   "theorems": [
    "Verif.Merkle.C31_identifies",
    "Verif.Merkle.C31_one_leaf",
    "Verif.Merkle.C31_length_matters"
   ],
   "note": "a missing sibling counts as the node itself"
  },
  {
   "property": "C32",
   "status": "partial",
   "theorems": [
    "Verif.Merkle.C32_server_partial",
    "Verif.Merkle.C32_from_tree_false"
   ],
   "note": "proved for servers made from up to 2^30 leaves; false of servers made from a tree, which find nothing by digest; Digests[-1] is taken as the last element"
  },
  {
   "property": "C33",
   "status": "partial",
   "theorems": [
    "Verif.Bumps.C33_roundtrip_partial",
    "Verif.Bumps.C33_bytes_partial",
    "Verif.Bumps.C33_truncated",
    "Verif.Bumps.C33_size_exact",
    "Verif.Bumps.C33_deep_false"
   ],
   "note": "proved for fewer than 256 levels of fewer than 2^31 nodes; with 256 levels or more another BUMP is read, as the depth is one byte"
  },
  {
   "property": "C34",
   "status": "partial",
   "theorems": [
    "Verif.Bumps.C34_root_partial",
    "Verif.Bumps.C34_extract_partial",
    "Verif.Bumps.C34_empty_false",
    "Verif.Bumps.C34_index_false",
    "Verif.Bumps.C34_left_duplicate_undefined"
   ],
   "note": "proved for non-empty branches with index below 2^32; false of the code for the branch of a block of one transaction and for larger indices"
  },
  {
   "property": "C35",
   "status": "partial",
   "theorems": [
    "Verif.Tsc.C35_roundtrip_partial",
    "Verif.Tsc.C35_transaction_lost",
    "Verif.Tsc.C35_index_false",
    "Verif.Tsc.C35_no_target_undefined",
    "Verif.Tsc.C35_truncated",
    "Verif.Tsc.C35_unknown_node"
   ],
   "note": "proved for proofs that give the transaction id, with index below 2^32; false of the code otherwise: an included transaction is dropped on reading, the index is cut to 32 bits, and a proof without target is undefined; binary form only"
  },
  {
   "property": "C36",
   "status": "proved",
   "theorems": [
    "Verif.Text.C36_round_trip",
    "Verif.Text.C36_refused",
    "Verif.Text.C36_short_refused",
    "Verif.Text.C36_check_round_trip",
    "Verif.Text.C36_check_unique"
   ],
   "note": "the double hash is a parameter; base 58 digits are the data library's, modelled by their ordinary meaning"
  },
  {
   "property": "C37",
   "status": "partial",
   "theorems": [
    "Verif.Text.C37_round_trip",
    "Verif.Text.C37_unique_partial",
    "Verif.Text.C37_ambiguous"
   ],
   "note": "addresses round-trip; uniqueness is false of the code: payloads shorter than twenty bytes are extended by zeros; it holds for digests not ending in zero"
  },
  {
   "property": "C38",
   "status": "proved",
   "theorems": [
    "Verif.Text.C38_round_trip",
    "Verif.Text.C38_shape",
    "Verif.Text.C38_unwritable"
   ],
   "note": "for every key the validity check accepts; some keys libsecp256k1 accepts fail that check because it reads the bytes in the other order, and are written as the empty text"
  },
  {
   "property": "C39",
   "status": "proved",
   "theorems": [
    "Verif.Keys.C39_reads_inside"
   ],
   "note": ""
  },
  {
   "property": "C40",
   "status": "partial",
   "theorems": [
    "Verif.Keys.C40_negate_partial",
    "Verif.Keys.C40_tweak_partial",
    "Verif.Keys.C40_tweak_agrees_partial",
    "Verif.Keys.C40_times_partial",
    "Verif.Keys.C40_plus_is_a_bit",
    "Verif.Keys.C40_times_is_a_bit",
    "Verif.Keys.C40_plus_wrong",
    "Verif.Keys.C40_pub_plus_ignores",
    "Verif.Keys.C40_pub_plus_wrong",
    "Verif.Keys.C40_pub_plus_aborts",
    "Verif.Keys.C40_valid_disagrees"
   ],
   "note": "false of the code for adding and multiplying secret keys and adding public keys; negation, tweaking and multiplying a public key are right; libsecp256k1 is a parameter with the laws of a group of the published order"
  },
  {
   "property": "C41",
   "status": "proved",
   "theorems": [
    "Verif.Keys.C41_secret",
    "Verif.Keys.C41_pubkey",
    "Verif.Keys.C41_secret_ambiguous"
   ],
   "note": "for keys of the right sizes on a network; a second text of the same secret key is also accepted"
  },
  {
   "property": "C42",
   "status": "partial",
   "theorems": [
    "Verif.Keys.C42_agrees_partial",
    "Verif.Keys.C42_path_partial",
    "Verif.Keys.C42_mismatch",
    "Verif.Keys.C42_both_skip",
    "Verif.Keys.C42_hardened",
    "Verif.Keys.C42_bip32"
   ],
   "note": "false of the code when the left half of the authentication code exceeds the order read in the wrong direction; holds otherwise; HMAC, Hash160 and libsecp256k1 are parameters"
  },
  {
   "property": "C43",
   "status": "partial",
   "theorems": [
    "Verif.Keys.C43_standard_partial",
    "Verif.Keys.C43_terminates_partial",
    "Verif.Keys.C43_hangs",
    "Verif.Keys.C43_m_hangs",
    "Verif.Keys.C43_malformed_accepted",
    "Verif.Keys.C43_too_large"
   ],
   "note": "false of the code: any text with another character, such as the leading m of a standard path, is never finished with, and malformed texts are accepted"
  },
  {
   "property": "C44",
   "status": "partial",
   "theorems": [
    "Verif.Text.C44_generated",
    "Verif.Text.C44_sizes",
    "Verif.Text.C44_only_partial",
    "Verif.Text.C44_injective",
    "Verif.Text.C44_unknown_refused",
    "Verif.Text.C44_one_word",
    "Verif.Text.C44_abandon",
    "Verif.Text.C44_long_undefined",
    "Verif.Text.english_good"
   ],
   "note": "generated phrases are valid, and valid phrases of 12, 15, 18, 21 or 24 words are generated; false of the code for other lengths: one word alone can be valid, and 27 or more are undefined; SHA256 is a parameter; english_good proves the word list has 2048 different words"
  },
  {
   "property": "C45",
   "status": "partial",
   "theorems": [
    "Verif.Work.C45_expand",
    "Verif.Work.C45_compact_partial",
    "Verif.Work.C45_exact_partial",
    "Verif.Work.C45_false_small"
   ],
   "note": "false of the code for targets below 2^24, whose exponent is not initialised; holds from there on"
  },
  {
   "property": "C46",
   "status": "proved",
   "theorems": [
    "Verif.Work.C46_recombine",
    "Verif.Work.C46_parts",
    "Verif.Work.C46_which_bits",
    "Verif.Work.C46_fixed"
   ],
   "note": ""
  },
  {
   "property": "C47",
   "status": "partial",
   "theorems": [
    "Verif.Work.C47_solves",
    "Verif.Work.C47_valid_partial",
    "Verif.Work.C47_false_no_target",
    "Verif.Work.C47_no_extra_nonce"
   ],
   "note": "false of the code if the target is zero, when the empty proof is returned, and undefined if there is no extra nonce; holds otherwise; the hash is a parameter"
  },
  {
   "property": "C48",
   "status": "proved",
   "theorems": [
    "Verif.Work.C48_version",
    "Verif.Work.C48_rest"
   ],
   "note": ""
  },
  {
   "property": "C49",
   "status": "partial",
   "theorems": [
    "Verif.Boost.C49_output_partial",
    "Verif.Boost.C49_false_tag",
    "Verif.Boost.C49_input_partial",
    "Verif.Boost.C49_empty"
   ],
   "note": "Outputs with a tag of at most 20 bytes, and valid inputs with a key of 33 or 65 bytes, are read back. False of contracts with a longer tag, which can be made and written but are not read (C49_false_tag). Strings under 2 GiB; the pubkey hash of a contract input is not part of its script."
  },
  {
   "property": "C50",
   "status": "partial",
   "theorems": [
    "Verif.Boost.C50_rolling_partial",
    "Verif.Boost.C50_masks",
    "Verif.Boost.C50_false"
   ],
   "note": "With version rolling the input made for a proof is the input it came from. Without, it always carries bits, because the mask -1 is not zero, and no longer proves the output (C50_false)."
  },
  {
   "property": "C51",
   "status": "partial",
   "theorems": [
    "Verif.Pay.C51_expected_partial",
    "Verif.Pay.C51_bound_partial",
    "Verif.Pay.C51_false"
   ],
   "note": "false of the code when the numbers of inputs and outputs are written with different sizes, since the number of inputs is counted twice; the exact difference is proved"
  },
  {
   "property": "C52",
   "status": "partial",
   "theorems": [
    "Verif.Pay.C52_fee_partial",
    "Verif.Pay.C52_completed",
    "Verif.Pay.C52_defined",
    "Verif.Pay.C52_false"
   ],
   "note": "proved whenever the sums do not overflow, which is so for up to 4392 inputs and outputs of valid amounts; beyond that the sum of valid amounts can overflow, which is undefined"
  },
  {
   "property": "C53",
   "status": "partial",
   "theorems": [
    "Verif.SPV.C53_knows_partial",
    "Verif.SPV.C53_defined",
    "Verif.SPV.C53_false_same_root",
    "Verif.SPV.C53_false_gap",
    "Verif.SPV.C53_false_latest"
   ],
   "note": "proved for every history in which headers are inserted without gaps and no two of the chain have the same hash or Merkle root; false of the code otherwise, with witnesses"
  },
  {
   "property": "C54",
   "status": "partial",
   "theorems": [
    "Verif.SPV.C54_confirmed_partial",
    "Verif.SPV.C54_validates_partial",
    "Verif.SPV.C54_confirmed_iff_partial",
    "Verif.SPV.C54_reported_partial",
    "Verif.SPV.C54_false_stale",
    "Verif.SPV.C54_false_lost"
   ],
   "note": "proved for histories of headers in order and paths as a block gives them (no collisions), in which headers with proofs may be replaced but not removed with remove_header; false of the code otherwise, with witnesses"
  },
  {
   "property": "C55",
   "status": "partial",
   "theorems": [
    "Verif.SPV.C55_backed_partial",
    "Verif.SPV.C55_chain",
    "Verif.SPV.C55_genesis",
    "Verif.SPV.C55_false_id",
    "Verif.SPV.C55_false_twice",
    "Verif.SPV.C55_false_both",
    "Verif.SPV.C55_false_negative",
    "Verif.SPV.C55_false_time"
   ],
   "note": "Proved for proofs in which transactions are filed under their ids and no two have the same id. Without that it is false: ids are not compared; and outputs can be spent twice, negative outputs create value, and the header of a proof is not compared with that of the database."
  },
  {
   "property": "C56",
   "status": "partial",
   "theorems": [
    "Verif.Pay.C56_roundtrip_partial",
    "Verif.Pay.C56_size_exact",
    "Verif.Pay.C56_truncated",
    "Verif.Pay.C56_false_equal"
   ],
   "note": "Round trip for BEEFs whose BUMPs have fewer than 256 levels (the depth is one byte). Equality ignores the version: C56_false_equal."
  },
  {
   "property": "C57",
   "status": "partial",
   "theorems": [
    "Verif.Pay.C57_valid_iff",
    "Verif.Pay.C57_validated_partial",
    "Verif.Pay.C57_false_root",
    "Verif.Pay.C57_false_index",
    "Verif.Pay.C57_false_unlinked"
   ],
   "note": "Exact characterisation, for BEEFs none of whose BUMPs has root zero. Without that the property is false (C57_false_root); index range and membership of the transaction in its BUMP are not checked (C57_false_index, C57_false_unlinked)."
  },
  {
   "property": "C58",
   "status": "partial",
   "theorems": [
    "Verif.Pay.C58_ignored",
    "Verif.Pay.C58_valid_iff",
    "Verif.Pay.C58_confirmed_partial",
    "Verif.Pay.C58_false",
    "Verif.Pay.C58_false_missing"
   ],
   "note": "False: validate passes no database to the check of the nodes, so an envelope is validated if and only if it is valid. What that means is given exactly, as is what the check of the nodes does when given a database. Antecedents that are missing are not noticed."
  },
  {
   "property": "C59",
   "status": "partial",
   "theorems": [
    "Verif.Stratum.C59_reads_partial",
    "Verif.Stratum.C59_exact",
    "Verif.Stratum.C59_false_path",
    "Verif.Stratum.C59_false_version",
    "Verif.Stratum.C59_false_digest",
    "Verif.Stratum.C59_false_order",
    "Verif.Stratum.C59_false_message",
    "Verif.Stratum.C59_defined",
    "Verif.Stratum.C59_digest_iff"
   ],
   "note": "False as stated: paths cannot be written and are read backward, versions change byte order, three of every four bytes of digests are reversed, and messages lose their parameters. The exact set of notifications that survive is given."
  },
  {
   "property": "C60",
   "status": "partial",
   "theorems": [
    "Verif.Stratum.C60_round_partial",
    "Verif.Stratum.C60_exact",
    "Verif.Stratum.C60_false_bits",
    "Verif.Stratum.C60_false_nonce",
    "Verif.Stratum.C60_accepts",
    "Verif.Stratum.C60_undefined"
   ],
   "note": "False as stated for version bits, whose byte order changes, and for nonces that are not digits, which are undefined behaviour. The exact sets are given."
  },
  {
   "property": "C61",
   "status": "partial",
   "theorems": [
    "Verif.Stratum.C61_agreed",
    "Verif.Stratum.C61_none",
    "Verif.Stratum.C61_history_partial",
    "Verif.Stratum.C61_false_text",
    "Verif.Stratum.C61_false_order",
    "Verif.Stratum.C61_false_undefined"
   ],
   "note": "The first half is proved for all masks and histories; the second is false: no text of a mask is accepted."
  },
  {
   "property": "C62",
   "status": "partial",
   "theorems": [
    "Verif.Stratum.C62_malformed",
    "Verif.Stratum.C62_second_partial",
    "Verif.Stratum.C62_false_rejected",
    "Verif.Stratum.C62_false_accepted",
    "Verif.Stratum.C62_history_partial"
   ],
   "note": "False as stated: rejected logins are authorised and accepted ones are undefined behaviour."
  },
  {
   "property": "C63",
   "status": "partial",
   "theorems": [
    "Verif.Stratum.C63_unsubscribed",
    "Verif.Stratum.C63_difficulty",
    "Verif.Stratum.C63_extranonce",
    "Verif.Stratum.C63_mask_partial",
    "Verif.Stratum.C63_sent",
    "Verif.Stratum.C63_minimum",
    "Verif.Stratum.C63_false_mask",
    "Verif.Stratum.C63_false_send",
    "Verif.Stratum.C63_false_raised"
   ],
   "note": "Proved for difficulties and extra nonces at the time they are set; false for masks and for a minimum raised later."
  },
  {
   "property": "C64",
   "status": "partial",
   "theorems": [
    "Verif.Stratum.C64_names",
    "Verif.Stratum.C64_unknown",
    "Verif.Stratum.C64_request_partial",
    "Verif.Stratum.C64_valid_iff",
    "Verif.Stratum.C64_response",
    "Verif.Stratum.C64_response_iff",
    "Verif.Stratum.C64_boolean",
    "Verif.Stratum.C64_false_notification",
    "Verif.Stratum.C64_false_nameless"
   ],
   "note": "Proved for requests of methods with names and for responses; false for notifications and for the methods without names."
  },
  {
   "property": "C65",
   "status": "partial",
   "theorems": [
    "Verif.Text.C65_exact",
    "Verif.Text.C65_round_partial",
    "Verif.Text.C65_false_empty",
    "Verif.Text.C65_accepts",
    "Verif.Text.C65_undefined",
    "Verif.Text.C65_false_undefined"
   ],
   "note": "False as stated for empty data, which are refused, and for upper case digits with a checksum, which are undefined behaviour. Both sets are given exactly."
  },
  {
   "property": "C66",
   "status": "partial",
   "theorems": [
    "Verif.Keys.C66_defined_partial",
    "Verif.Keys.C66_false_zero",
    "Verif.Keys.C66_false_undefined",
    "Verif.Keys.C66_false_key"
   ],
   "note": "False as stated: every byte ever delivered is zero, the second read is undefined behaviour, and the random key source never returns."
  },
  {
   "property": "C67",
   "status": "partial",
   "theorems": [
    "Verif.Pay.C67_binary_partial",
    "Verif.Pay.C67_false_text",
    "Verif.Pay.C67_verified_iff",
    "Verif.Pay.C67_signed",
    "Verif.Pay.C67_unsigned",
    "Verif.Pay.C67_refused",
    "Verif.Pay.C67_json_iff",
    "Verif.Pay.C67_json_signed_partial",
    "Verif.Pay.C67_false_json"
   ],
   "note": "Binary payloads are read back. No envelope of text is: the encoding is written as UTF_8 and read as UTF-8. What is read as JSON is what was signed for text; for base 64 the digits are read, not what they stand for. Verification is characterised exactly, and envelopes made with a secret key are verified. Base 64 and libsecp256k1 are parameters."
  },
  {
   "property": "C68",
   "status": "partial",
   "theorems": [
    "Verif.Script.C68_address_exact",
    "Verif.Script.C68_script_hash_exact",
    "Verif.Script.C68_pubkey_exact",
    "Verif.Script.C68_made_recognised",
    "Verif.Script.C68_recognised_is_made_partial",
    "Verif.Script.C68_false_not_minimal",
    "Verif.Script.C68_false_throws"
   ],
   "note": "Scripts made are recognised and give back the value. Exactly which scripts are recognised is proved; it is more than the scripts made, since the value may be pushed in any way, and asking about a script that ends inside a push throws."
  },
  {
   "property": "C69",
   "status": "partial",
   "theorems": [
    "Verif.Script.C69_inside",
    "Verif.Script.C69_instructions_partial",
    "Verif.Script.C69_terminates_partial",
    "Verif.Script.C69_false_repeated_optional",
    "Verif.Script.C69_false_throws",
    "Verif.Script.C69_false_not_a_push"
   ],
   "note": "Captured data always comes from the script. Termination is proved where the body of every repetition consumes something; a repeated optional pattern never returns, and a script ending inside a push makes matching throw."
  },
  {
   "property": "C70",
   "status": "partial",
   "theorems": [
    "Verif.Time.C70_exact",
    "Verif.Time.C70_seconds",
    "Verif.Time.C70_round_partial",
    "Verif.Time.C70_back",
    "Verif.Time.C70_false_late",
    "Verif.Time.C70_fields_partial",
    "Verif.Time.C70_false_day",
    "Verif.Time.C70_text",
    "Verif.Time.C70_read_range",
    "Verif.Time.C70_read_spaces",
    "Verif.Time.C70_read",
    "Verif.Time.C70_false_text",
    "Verif.Time.C70_false_february"
   ],
   "note": "Proved up to 2038-01-19 03:14:07 for the conversions and the text; false after that (overflow) and for the day, which is the month's number less one."
  },
  {
   "property": "C71",
   "status": "proved",
   "theorems": [
    "Verif.Sig.C71_complete"
   ],
   "note": ""
  },
  {
   "property": "C72",
   "status": "partial",
   "theorems": [
    "Verif.Keys.C72_first_partial",
    "Verif.Keys.C72_false",
    "Verif.Keys.C72_repeated"
   ],
   "note": "false of the code: from the second key on all keys are the same"
  },
  {
   "property": "C73",
   "status": "partial",
   "theorems": [
    "Verif.C73_input_slice_partial",
    "Verif.C73_output_slice_undefined"
   ],
   "note": "inputs: proved; outputs: the code reads an uninitialised variable for every accepted transaction, proved as the negation"
  },
  {
   "property": "C74",
   "status": "proved",
   "theorems": [
    "Verif.Script.C74_step_run_agree",
    "Verif.Script.C74_halted_stays"
   ],
   "note": ""
  },
  {
   "property": "C75",
   "status": "partial",
   "theorems": [
    "Verif.Script.C75_left_right_partial",
    "Verif.Script.C75_substr_partial",
    "Verif.Script.C19_undefined"
   ],
   "note": "false of the code (reads outside the string) for a negative zero operand; proved for every other operand"
  },
  {
   "property": "C76",
   "status": "partial",
   "theorems": [
    "Verif.Sig.C76_success_iff",
    "Verif.Sig.C76_failure_iff_partial",
    "Verif.Sig.C76_undemanded_refused",
    "Verif.Sig.C76_empty_is_error",
    "Verif.Sig.C76_low_s"
   ],
   "note": "proved except for the clause on empty signatures, which is false of the code: an empty signature is an error when the fork id is required or an encoding is demanded; the curve is a parameter"
  },
  {
   "property": "C77",
   "status": "partial",
   "theorems": [
    "Verif.Keys.C77_minimal_partial",
    "Verif.Keys.C77_lax_reads_der",
    "Verif.Keys.C77_negative_accepted"
   ],
   "note": "false of the code: negative numbers are accepted; proved: exactly the unpadded DER forms, of either sign"
  },
  {
   "property": "C78",
   "status": "proved",
   "theorems": [
    "Verif.Script.C78_pay_to_address",
    "Verif.Script.C78_other_key_refused",
    "Verif.Script.C78_pay_to_pubkey",
    "Verif.Sig.C78_address_redeemed_iff",
    "Verif.Sig.C78_pubkey_redeemed_iff"
   ],
   "note": "the exact conditions are for all signatures but one: without the fork id, the bytes that the output itself pushes; the verdict theorems hold for all"
  },
  {
   "property": "C79",
   "status": "partial",
   "theorems": [
    "Verif.Script.C79_lock_decides_partial",
    "Verif.Script.C79_only_values_matter",
    "Verif.Script.C79_false_return"
   ],
   "note": "proved for unlocking scripts that only push; false of the code otherwise: OP_RETURN in the unlocking script ends evaluation with success"
  },
  {
   "property": "C80",
   "status": "partial",
   "theorems": [
    "Verif.Bumps.C80_branches_partial",
    "Verif.Bumps.C80_forged",
    "Verif.Bumps.C80_false"
   ],
   "note": "false of the code: a node given at an offset that the level below determines replaces it in the root but not in the branches, so any transaction can be marked in a BUMP that validates; proved for BUMPs without such nodes"
  },
  {
   "property": "C81",
   "status": "proved",
   "theorems": [
    "Verif.Script.C81_encoding_shortest",
    "Verif.Script.C81_minimal_iff",
    "Verif.Script.C81_unary",
    "Verif.Script.C81_binary",
    "Verif.Script.C81_within",
    "Verif.Script.C81_numequalverify",
    "Verif.Script.C21_numequalverify"
   ],
   "note": "the integer type of the data library is taken to compute exactly"
  },
  {
   "property": "C82",
   "status": "proved",
   "theorems": [
    "Verif.Script.C82_size",
    "Verif.Script.C82_equal",
    "Verif.Script.C82_equalverify",
    "Verif.Script.C82_bitwise",
    "Verif.Script.C82_invert",
    "Verif.Script.C82_hash",
    "Verif.Script.C82_small_numbers"
   ],
   "note": "hash functions are parameters"
  },
  {
   "property": "C83",
   "status": "partial",
   "theorems": [
    "Verif.Script.C83_num2bin_partial",
    "Verif.Script.C83_bin2num",
    "Verif.Script.C83_negative_zero"
   ],
   "note": "false of the code for a size given as negative zero, which is taken as 128"
  },
  {
   "property": "C84",
   "status": "proved",
   "theorems": [
    "Verif.Text.C84_sound",
    "Verif.Text.C84_complete",
    "Verif.Text.C84_valid_kept"
   ],
   "note": "the double hash is a parameter"
  },
  {
   "property": "C85",
   "status": "partial",
   "theorems": [
    "Verif.Script.C85_code",
    "Verif.Script.C85_balanced_partial",
    "Verif.Script.C85_deleted",
    "Verif.Script.C85_asked",
    "Verif.Script.C85_false_in_conditional"
   ],
   "note": "false of the code when the separator is inside a conditional; what C85_code says of the code in every case is that it is decompiled anew and so has to be balanced"
  },
  {
   "property": "C86",
   "status": "partial",
   "theorems": [
    "Verif.Work.C86_rebuilt_partial",
    "Verif.Work.C86_string_partial",
    "Verif.Work.C86_false_rolling",
    "Verif.Work.C86_false_path"
   ],
   "note": "false of the code: the path given is ignored, and the mask and rolled bits are not asked for; holds for proofs with an empty path that roll no version, and of the work string also for those that do"
  },
  {
   "property": "C87",
   "status": "partial",
   "theorems": [
    "Verif.Chain.C87_current_partial",
    "Verif.Chain.C87_header_partial",
    "Verif.Chain.C87_false_stale"
   ],
   "note": "false of the code: the hash is kept after fields change; holds for histories with no change after a request"
  },
  {
   "property": "C88",
   "status": "partial",
   "theorems": [
    "Verif.Chain.C88_exact_partial",
    "Verif.Chain.C88_false_negative",
    "Verif.Chain.C88_false_coinbase"
   ],
   "note": "C88_exact_partial says exactly which transactions are reported valid; false of the code: negative amounts are accepted with some scripts, coinbase transactions are recognised by the wrong index, and malformed scripts throw"
  },
  {
   "property": "C89",
   "status": "partial",
   "theorems": [
    "Verif.Chain.C89_work_partial",
    "Verif.Chain.C89_slice",
    "Verif.Chain.C89_false_root"
   ],
   "note": "false of the code: the Merkle root is not checked"
  },
  {
   "property": "C90",
   "status": "partial",
   "theorems": [
    "Verif.Script.C90_multisig",
    "Verif.Script.C90_checks",
    "Verif.Script.C90_code_partial",
    "Verif.Script.C90_false_below"
   ],
   "note": "false of the code if there is something on the stack below the extra element: the wrong elements are then removed from the script code; everything else holds"
  },
  {
   "property": "C91",
   "status": "partial",
   "theorems": [
    "Verif.Script.C91_sequence_partial",
    "Verif.Script.C91_false_repeated",
    "Verif.Script.C91_false_any"
   ],
   "note": "Proved for parts other than any, repeated and op_return_data, which lose their class when put into a sequence; there it is false."
  },
  {
   "property": "C92",
   "status": "partial",
   "theorems": [
    "Verif.Script.C92_repeats_partial",
    "Verif.Script.C92_false_zero"
   ],
   "note": "Proved for bounds from 1 to 2^31 - 1; an upper bound of zero is no bound at all."
  },
  {
   "property": "C93",
   "status": "partial",
   "theorems": [
    "Verif.Boost.C93_output_size_partial",
    "Verif.Boost.C93_input_size_partial",
    "Verif.Boost.C93_false",
    "Verif.Boost.C93_expected_partial",
    "Verif.Boost.C93_expected_false"
   ],
   "note": "False for data of 75, 255 or 65535 bytes (C93_false), and the expected size is one too small for the longest signature (C93_expected_false)."
  },
  {
   "property": "C94",
   "status": "partial",
   "theorems": [
    "Verif.Boost.C94_accepts_partial",
    "Verif.Boost.C94_scripts_partial",
    "Verif.Boost.C94_any_partial",
    "Verif.Boost.C94_false_target",
    "Verif.Boost.C94_false"
   ],
   "note": "Proved for configurations after genesis with enough memory, operations and number length, for sizes below 2^28, and (if minimal pushes are demanded) no pushed value of 256 or 65536 bytes. C94_any_partial is for any number of values pushed in any way. False in general: the script refuses every target with exponent below 3 or above 32, which are accepted off the chain; C94_false gives a valid proof that is refused."
  },
  {
   "property": "C95",
   "status": "partial",
   "theorems": [
    "Verif.Pay.C95_rates_partial",
    "Verif.Pay.C95_false_overflow",
    "Verif.Pay.C95_false_zero"
   ],
   "note": "proved for rates with sizes that are not zero whose cross products fit 64 bits; false of the code otherwise"
  },
  {
   "property": "C96",
   "status": "partial",
   "theorems": [
    "Verif.Pay.C96_valid_partial",
    "Verif.Pay.C96_inputs",
    "Verif.Pay.C96_false"
   ],
   "note": "proved when no output is negative; false of the code otherwise, since a negative amount is accepted with a FALSE RETURN script"
  },
  {
   "property": "C97",
   "status": "partial",
   "theorems": [
    "Verif.Pay.C97_spends_partial",
    "Verif.Pay.C97_only",
    "Verif.Pay.C97_false_refused",
    "Verif.Pay.C97_false_no_key"
   ],
   "note": "Proved for keys valid both for the curve and for secret::valid; false for keys on which they disagree (secret::valid reads the key in the wrong byte order). libsecp256k1 signing and verifying is a parameter whose signatures verify."
  },
  {
   "property": "C98",
   "status": "partial",
   "theorems": [
    "Verif.Merkle.C98_accepted_iff_partial",
    "Verif.Merkle.C98_ends_iff",
    "Verif.Merkle.C98_never",
    "Verif.Merkle.C98_false_hangs"
   ],
   "note": "what is accepted is proved exactly; that the check ends is false of the code when paths disagree, and exactly when it ends is proved"
  },
  {
   "property": "C99",
   "status": "partial",
   "theorems": [
    "Verif.Merkle.C99_sum_partial",
    "Verif.Merkle.C99_false_lost",
    "Verif.Merkle.C99_false_written_out",
    "Verif.Merkle.C99_false_undefined"
   ],
   "note": "proved for paths of one length up to 31 with indices in range whose digests do not collide and do not write out duplicates; false of the code otherwise, with witnesses"
  }
 ]
}