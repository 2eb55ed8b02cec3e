{
 "claims": [
  {
   "property": "C01",
   "status": "proved",
   "theorems": [
    "Bitforge.C01_encode_value",
    "Bitforge.C01_decode_value",
    "Bitforge.C01_decode_encode",
    "Bitforge.C01_encode_decode",
    "Bitforge.C01_length",
    "Bitforge.C01_default_roundtrip",
    "Bitforge.C01_default_shortest"
   ],
   "note": ""
  },
  {
   "property": "C02",
   "status": "proved",
   "theorems": [
    "Bitforge.C02_overflow_wraps",
    "Bitforge.C02_negative_zero",
    "Bitforge.C02_collision"
   ],
   "note": ""
  },
  {
   "property": "C03",
   "status": "proved",
   "theorems": [
    "Bitforge.C03_varint_roundtrip",
    "Bitforge.C03_varint_length",
    "Bitforge.C03_varint_prefix_free"
   ],
   "note": ""
  },
  {
   "property": "C04",
   "status": "proved",
   "theorems": [
    "Bitforge.C04_fifo",
    "Bitforge.C04_read_exact"
   ],
   "note": ""
  },
  {
   "property": "C05",
   "status": "proved",
   "theorems": [
    "Bitforge.C05_decode_encode",
    "Bitforge.C05_decode_iff",
    "Bitforge.C05_reject",
    "Bitforge.C05_accept",
    "Bitforge.C05_encode"
   ],
   "note": ""
  },
  {
   "property": "C06",
   "status": "proved",
   "theorems": [
    "Bitforge.C06_encode_spec",
    "Bitforge.C06_decode_spec",
    "Bitforge.C06_bijection",
    "Bitforge.C06_decode_total"
   ],
   "note": ""
  },
  {
   "property": "C07",
   "status": "proved",
   "theorems": [
    "Bitforge.C07_roundtrip",
    "Bitforge.C07_canonical",
    "Bitforge.C07_checksum",
    "Bitforge.C07_reject",
    "Bitforge.C07_valid"
   ],
   "note": ""
  },
  {
   "property": "C08",
   "status": "partial",
   "theorems": [
    "Bitforge.C08_encode_shortest",
    "Bitforge.C08_roundtrip_partial",
    "Bitforge.C08_limit_exact",
    "Bitforge.C08_four_byte_limit_refuted"
   ],
   "note": "encode/decode proved for every integer the decoder's limit admits; the documented 4-byte range is refuted: the code tests len >= size, so size=4 admits 3 bytes"
  },
  {
   "property": "C09",
   "status": "proved",
   "theorems": [
    "Bitforge.C09_minimal_iff",
    "Bitforge.C09_minimal_canonical",
    "Bitforge.C09_lax",
    "Bitforge.C09_str_operand"
   ],
   "note": ""
  },
  {
   "property": "C10",
   "status": "proved",
   "theorems": [
    "Bitforge.C10_own_value",
    "Bitforge.C10_sound",
    "Bitforge.C10_unknown",
    "Bitforge.C10_object",
    "Bitforge.C10_constants"
   ],
   "note": ""
  },
  {
   "property": "C11",
   "status": "proved",
   "theorems": [
    "Bitforge.C11_in_range",
    "Bitforge.C11_constructor",
    "Bitforge.C11_random",
    "Bitforge.C11_unknown_network"
   ],
   "note": ""
  },
  {
   "property": "C12",
   "status": "proved",
   "theorems": [
    "Bitforge.C12_to_wif",
    "Bitforge.C12_roundtrip"
   ],
   "note": ""
  },
  {
   "property": "C13",
   "status": "proved",
   "theorems": [
    "Bitforge.C13_from_wif_iff",
    "Bitforge.C13_canonical",
    "Bitforge.C13_reject",
    "Bitforge.C13_reject_base58"
   ],
   "note": ""
  },
  {
   "property": "C14",
   "status": "proved",
   "theorems": [
    "Bitforge.C14_to_bytes",
    "Bitforge.C14_from_bytes_iff",
    "Bitforge.C14_roundtrip",
    "Bitforge.C14_canonical"
   ],
   "note": ""
  },
  {
   "property": "C15",
   "status": "proved",
   "theorems": [
    "Bitforge.C15_to_bytes",
    "Bitforge.C15_roundtrip",
    "Bitforge.C15_constructor",
    "Bitforge.C15_from_key_or_script"
   ],
   "note": ""
  },
  {
   "property": "C16",
   "status": "proved",
   "theorems": [
    "Bitforge.C16_from_bytes_iff",
    "Bitforge.C16_from_bytes_reject",
    "Bitforge.C16_classify",
    "Bitforge.C16_canonical",
    "Bitforge.C16_from_string_iff"
   ],
   "note": ""
  },
  {
   "property": "C17",
   "status": "proved",
   "theorems": [
    "Bitforge.C17_on_curve",
    "Bitforge.C17_accepts",
    "Bitforge.C17_rejects"
   ],
   "note": ""
  },
  {
   "property": "C18",
   "status": "proved",
   "theorems": [
    "Bitforge.C18_to_bytes",
    "Bitforge.C18_from_sec",
    "Bitforge.C18_bytes",
    "Bitforge.C18_hex"
   ],
   "note": ""
  },
  {
   "property": "C19",
   "status": "partial",
   "theorems": [
    "Bitforge.C19_prefix_partial",
    "Bitforge.C19_exact_partial",
    "Bitforge.C19_unique_partial",
    "Bitforge.C19_bytearray",
    "Bitforge.C19_trailing_refuted",
    "Bitforge.C19_unreduced_refuted"
   ],
   "note": "a 33/65-byte string that parses has one of the accepted prefixes and decodes to that exact point (partial); refuted for trailing bytes after the x/y slices and for coordinates >= p, both of which are accepted"
  },
  {
   "property": "C20",
   "status": "proved",
   "theorems": [
    "Bitforge.C20_public_key",
    "Bitforge.C20_injective",
    "Bitforge.C20_address"
   ],
   "note": ""
  },
  {
   "property": "C21",
   "status": "proved",
   "theorems": [
    "Bitforge.C21_inverse",
    "Bitforge.C21_fails",
    "Bitforge.C21_unique"
   ],
   "note": ""
  },
  {
   "property": "C22",
   "status": "proved",
   "theorems": [
    "Bitforge.C22_square",
    "Bitforge.C22_nonsquare"
   ],
   "note": ""
  },
  {
   "property": "C23",
   "status": "partial",
   "theorems": [
    "Bitforge.C23_add",
    "Bitforge.C23_double_partial",
    "Bitforge.C23_double_fails",
    "Bitforge.C23_mul_partial",
    "Bitforge.C23_mul_odd_partial",
    "Bitforge.C23_refuted"
   ],
   "note": "add, double and multiply agree with Mathlib's group for every point that has no multiple of order 2 and every curve over a prime field p > 3; refuted for points of order 2, where double raises AssertionError"
  },
  {
   "property": "C24",
   "status": "partial",
   "theorems": [
    "Bitforge.C24_partial",
    "Bitforge.C24_sign_partial",
    "Bitforge.C24_no_order",
    "Bitforge.C24_sign_errors",
    "Bitforge.C24_refuted"
   ],
   "note": "verify returns (r < n) on every signature sign makes, for every hash function and nonce; refuted when x(kG) lies in [n, p): sign does not reduce r"
  },
  {
   "property": "C25",
   "status": "proved",
   "theorems": [
    "Bitforge.C25_iff",
    "Bitforge.C25_range",
    "Bitforge.C25_reject"
   ],
   "note": ""
  },
  {
   "property": "C26",
   "status": "proved",
   "theorems": [
    "Bitforge.C26_table",
    "Bitforge.C26_rejects",
    "Bitforge.C26_shortest"
   ],
   "note": ""
  },
  {
   "property": "C27",
   "status": "proved",
   "theorems": [
    "Bitforge.C27_accepts_iff",
    "Bitforge.C27_errors",
    "Bitforge.C27_push_for"
   ],
   "note": ""
  },
  {
   "property": "C28",
   "status": "partial",
   "theorems": [
    "Bitforge.C28_hex_partial",
    "Bitforge.C28_hex_refuted",
    "Bitforge.C28_instruction_hex_partial",
    "Bitforge.C28_roundtrip_partial",
    "Bitforge.C28_pushdata_refuted",
    "Bitforge.C28_parse_refuted"
   ],
   "note": "round trip proved for every well-formed script without PUSHDATA whose shape does not trip RedeemMultisig.is_valid, and the outcome is determined in the other cases; refuted: PUSHDATA cannot be serialised (TypeError), four pushes cannot be parsed (AttributeError)"
  },
  {
   "property": "C29",
   "status": "partial",
   "theorems": [
    "Bitforge.C29_roundtrip_partial",
    "Bitforge.C29_pushdata_refuted",
    "Bitforge.C29_injective"
   ],
   "note": "proved when the parsed script has no PUSHDATA opcode; parsing is injective without restriction; refuted for PUSHDATA (TypeError)"
  },
  {
   "property": "C30",
   "status": "partial",
   "theorems": [
    "Bitforge.C30_truncated",
    "Bitforge.C30_complete_partial",
    "Bitforge.C30_outcomes",
    "Bitforge.C30_attribute_error_refuted"
   ],
   "note": "truncated inputs always give InsufficientData; complete inputs parse except for an exactly characterised set of shapes (refuted there: AttributeError)"
  },
  {
   "property": "C31",
   "status": "partial",
   "theorems": [
    "Bitforge.C31_from_string",
    "Bitforge.C31_spelling_partial",
    "Bitforge.C31_refuse",
    "Bitforge.C31_roundtrip_partial",
    "Bitforge.C31_nameless",
    "Bitforge.C31_empty",
    "Bitforge.C31_refuted"
   ],
   "note": "what from_string reads is exactly what the words spell (grammar in Spec/Names.lean: names, decimal sizes in the digits of any script, 0x-hex of either case, single spaces), and printing reads back, except for a characterised set of shapes (refuted there: AttributeError from the classifier); nameless opcodes always give KeyError"
  },
  {
   "property": "C32",
   "status": "partial",
   "theorems": [
    "Bitforge.C32_is_valid",
    "Bitforge.C32_exclusive",
    "Bitforge.C32_classify_exact",
    "Bitforge.C32_classify_complete",
    "Bitforge.C32_pubkey_in",
    "Bitforge.C32_pubkey_out",
    "Bitforge.C32_script_in",
    "Bitforge.C32_script_out",
    "Bitforge.C32_op_return",
    "Bitforge.C32_multisig",
    "Bitforge.C32_getters",
    "Bitforge.C32_getters_short",
    "Bitforge.C32_empty_refuted",
    "Bitforge.C32_parsed_key_refuted"
   ],
   "note": "exclusive and exact for all scripts; create/getters proved for all arguments the code can push; refuted for no signatures / no keys, and get_public_key on parsed scripts always raises"
  },
  {
   "property": "C33",
   "status": "proved",
   "theorems": [
    "Bitforge.C33_accepts_iff",
    "Bitforge.C33_errors",
    "Bitforge.C33_invariant"
   ],
   "note": ""
  },
  {
   "property": "C34",
   "status": "partial",
   "theorems": [
    "Bitforge.C34_format",
    "Bitforge.C34_roundtrip_partial",
    "Bitforge.C34_input_partial",
    "Bitforge.C34_output_partial",
    "Bitforge.C34_hex",
    "Bitforge.C34_pushdata_refuted",
    "Bitforge.C34_parse_refuted"
   ],
   "note": "exact bytes and round trip proved for every in-range transaction without PUSHDATA whose scripts do not trip the classifier, and the outcome is determined otherwise; refuted: PUSHDATA cannot be serialised, four-push scripts cannot be parsed"
  },
  {
   "property": "C35",
   "status": "proved",
   "theorems": [
    "Bitforge.C35_injective",
    "Bitforge.C35_prefix_free",
    "Bitforge.C35_congr"
   ],
   "note": ""
  },
  {
   "property": "C36",
   "status": "partial",
   "theorems": [
    "Bitforge.C36_reserialise_partial",
    "Bitforge.C36_trailing_refuted",
    "Bitforge.C36_varint_refuted",
    "Bitforge.C36_outcomes",
    "Bitforge.C36_reads",
    "Bitforge.C36_domain",
    "Bitforge.C36_trips"
   ],
   "note": "exactly the strings that begin with a readable transaction, counts in any width, are parsed (C36_domain, C36_reads); a parsed transaction is in range and its serialisation is a string no longer than the input, equal if as long; refuted: trailing bytes and non-minimal counts are accepted"
  },
  {
   "property": "C37",
   "status": "proved",
   "theorems": [
    "Bitforge.C37_frame",
    "Bitforge.C37_negative",
    "Bitforge.C37_address_succeeds"
   ],
   "note": ""
  },
  {
   "property": "C38",
   "status": "proved",
   "theorems": [
    "Bitforge.C38_order",
    "Bitforge.C38_order_nonneg"
   ],
   "note": ""
  },
  {
   "property": "C39",
   "status": "proved",
   "theorems": [
    "Bitforge.C39_payload",
    "Bitforge.C39_signed",
    "Bitforge.C39_independent",
    "Bitforge.C39_commits",
    "Bitforge.C39_script_code"
   ],
   "note": ""
  },
  {
   "property": "C40",
   "status": "partial",
   "theorems": [
    "Bitforge.C40_out_of_range",
    "Bitforge.C40_plain",
    "Bitforge.C40_address_keys",
    "Bitforge.C40_parsed",
    "Bitforge.C40_signed_twice",
    "Bitforge.C40_returns_signed_partial",
    "Bitforge.C40_negative_refuted"
   ],
   "note": "proved for indices from 0 up, out-of-range indices, plain, parsed and already signed inputs; refuted: a negative in-range index returns the transaction unsigned. The signer is an oracle"
  },
  {
   "property": "C41",
   "status": "partial",
   "theorems": [
    "Bitforge.C41_serialises_partial",
    "Bitforge.C41_long_redeem_refuted",
    "Bitforge.C41_redeem_bytes",
    "Bitforge.C41_redeem_length",
    "Bitforge.C41_two_of_three_refuted"
   ],
   "note": "proved when every redeem script has at most 75 bytes (at most one key, or two compressed); refuted for all longer ones, including the README's 2-of-3 (TypeError)"
  },
  {
   "property": "C42",
   "status": "partial",
   "theorems": [
    "Bitforge.C42_address",
    "Bitforge.C42_multisig_partial",
    "Bitforge.C42_duplicates_refuted",
    "Bitforge.C42_testnet_refuted"
   ],
   "note": "AddressInput exact; MultisigInput: exact condition proved; refuted: duplicate keys are accepted, test-network keys are refused"
  },
  {
   "property": "C43",
   "status": "partial",
   "theorems": [
    "Bitforge.C43_address",
    "Bitforge.C43_script_address_refuted",
    "Bitforge.C43_script",
    "Bitforge.C43_multisig_partial",
    "Bitforge.C43_multisig_refuted",
    "Bitforge.C43_data_limit",
    "Bitforge.C43_data_partial",
    "Bitforge.C43_data_refuted"
   ],
   "note": "AddressOutput, ScriptOutput and DataOutput up to 75 bytes proved; refuted: script addresses get a pubkey-hash script, MultisigOutput is the bare redeem script, empty and bytearray data are refused, 76 to 80 bytes cannot be serialised"
  },
  {
   "property": "C44",
   "status": "partial",
   "theorems": [
    "Bitforge.C44_outpoint_partial",
    "Bitforge.C44_reversed_refuted"
   ],
   "note": "get_id is the hash without reversal, so the outpoint carries the reversed hash (partial: exact bytes); refuted: it is the required outpoint only for palindromic hashes"
  },
  {
   "property": "C45",
   "status": "partial",
   "theorems": [
    "Bitforge.Interpreter.C45_terminates",
    "Bitforge.Interpreter.C45_evaluate",
    "Bitforge.Interpreter.C45_raises",
    "Bitforge.Interpreter.C45_outcome_partial",
    "Bitforge.Interpreter.C45_pushdata_refuted",
    "Bitforge.Interpreter.C45_p2sh_refuted"
   ],
   "note": "termination proved for every state; True/False proved for well-formed scripts without PUSHDATA and without the P2SH flag, and these are the only sources of exceptions; refuted: PUSHDATA raises TypeError, the P2SH flag AttributeError"
  },
  {
   "property": "C46",
   "status": "proved",
   "theorems": [
    "Bitforge.Interpreter.C46_limits",
    "Bitforge.Interpreter.C46_operations",
    "Bitforge.Interpreter.C46_script_size",
    "Bitforge.Interpreter.C46_push_size",
    "Bitforge.Interpreter.C46_op_count"
   ],
   "note": "limits proved for every accepted pair, and rejection with the right error beyond each"
  },
  {
   "property": "C47",
   "status": "proved",
   "theorems": [
    "Bitforge.Interpreter.C47_disabled",
    "Bitforge.Interpreter.C47_verify",
    "Bitforge.Interpreter.C47_errstr",
    "Bitforge.Interpreter.C47_executed",
    "Bitforge.Interpreter.C47_verif",
    "Bitforge.Interpreter.C47_return"
   ],
   "note": "disabled opcodes anywhere, OP_VERIF and OP_VERNOTIF anywhere, the other forbidden opcodes when executed"
  },
  {
   "property": "C48",
   "status": "proved",
   "theorems": [
    "Bitforge.Interpreter.C48_balanced",
    "Bitforge.Interpreter.C48_verify",
    "Bitforge.Interpreter.C48_untouched",
    "Bitforge.Interpreter.C48_skip",
    "Bitforge.Interpreter.C48_branch"
   ],
   "note": "balance as a grammar; a branch not taken leaves the stacks alone; IF a ELSE b ENDIF has the effect of the branch taken"
  },
  {
   "property": "C49",
   "status": "partial",
   "theorems": [
    "Bitforge.Interpreter.C49_stack_partial",
    "Bitforge.Interpreter.C49_underflow",
    "Bitforge.Interpreter.C49_drop_refuted",
    "Bitforge.Interpreter.C49_drop_partial",
    "Bitforge.Interpreter.C49_ifdup",
    "Bitforge.Interpreter.C49_depth",
    "Bitforge.Interpreter.C49_size",
    "Bitforge.Interpreter.C49_pick",
    "Bitforge.Interpreter.C49_roll",
    "Bitforge.Interpreter.C49_pick_range",
    "Bitforge.Interpreter.C49_altstack",
    "Bitforge.Interpreter.C49_equal",
    "Bitforge.Interpreter.C49_verify"
   ],
   "note": "every stack opcode proved but OP_DROP, which drops two elements (refuted)"
  },
  {
   "property": "C50",
   "status": "partial",
   "theorems": [
    "Bitforge.Interpreter.C50_unary_partial",
    "Bitforge.Interpreter.C50_abs_refuted",
    "Bitforge.Interpreter.C50_binary_partial",
    "Bitforge.Interpreter.C50_numequalverify",
    "Bitforge.Interpreter.C50_within",
    "Bitforge.Interpreter.C50_underflow",
    "Bitforge.Interpreter.C50_range",
    "Bitforge.Interpreter.C50_str_refuted",
    "Bitforge.Interpreter.C50_four_bytes_refuted",
    "Bitforge.Interpreter.C50_constants"
   ],
   "note": "all arithmetic proved on operands that decode; refuted: OP_ABS gives 1, str operands raise, four-byte operands are refused"
  },
  {
   "property": "C51",
   "status": "partial",
   "theorems": [
    "Bitforge.Interpreter.C51_exact",
    "Bitforge.Interpreter.C51_zero_partial",
    "Bitforge.Interpreter.C51_refuted",
    "Bitforge.Interpreter.C51_numbers"
   ],
   "note": "exact characterisation; refuted: anything that starts with a zero byte is False, so multiples of 256 are"
  },
  {
   "property": "C52",
   "status": "partial",
   "theorems": [
    "Bitforge.Interpreter.C52_hash160_refuted",
    "Bitforge.Interpreter.C52_p2pkh_refuted",
    "Bitforge.Interpreter.C52_p2sh_refuted",
    "Bitforge.Interpreter.C52_pay_to_pubkey_refuted",
    "Bitforge.Interpreter.C52_pay_to_script_refuted",
    "Bitforge.Interpreter.C52_flag_refuted",
    "Bitforge.Interpreter.C52_hashes"
   ],
   "note": "refuted: no script_sig spends any PayToPubkeyOut or PayToScriptOut (OP_HASH160 raises), and with the P2SH flag nothing is accepted; the other hash opcodes are proved"
  },
  {
   "property": "C53",
   "status": "proved",
   "theorems": [
    "Bitforge.Interpreter.C53_checksig",
    "Bitforge.Interpreter.C53_multisig",
    "Bitforge.Interpreter.C53_verify"
   ],
   "note": "proved: OP_CHECKSIG(VERIFY) never succeeds, and OP_CHECKMULTISIG(VERIFY) only with no signatures asked for"
  },
  {
   "property": "C54",
   "status": "proved",
   "theorems": [
    "Bitforge.Interpreter.C54_reuse",
    "Bitforge.Interpreter.C54_history",
    "Bitforge.Interpreter.C54_unchanged"
   ],
   "note": "result and final attributes are independent of the state before; the script is unchanged"
  },
  {
   "property": "C55",
   "status": "proved",
   "theorems": [
    "Bitforge.C55_strict_der",
    "Bitforge.C55_unambiguous",
    "Bitforge.C55_bytearray"
   ],
   "note": "validate_signature accepts exactly the strict DER encodings (grammar in Spec/Der.lean) followed by one byte; the accepted reading is unique"
  },
  {
   "property": "C56",
   "status": "proved",
   "theorems": [
    "Bitforge.C56_private",
    "Bitforge.C56_public",
    "Bitforge.C56_private_sound",
    "Bitforge.C56_public_sound",
    "Bitforge.C56_private_trailing"
   ],
   "note": "every 78-byte payload with the right version parses to its fields, and whatever parses is of that form; trailing bytes after the payload are ignored"
  },
  {
   "property": "C57",
   "status": "partial",
   "theorems": [
    "Bitforge.C57_private_refuted",
    "Bitforge.C57_public_refuted",
    "Bitforge.C57_private_partial"
   ],
   "note": "refuted: on both networks to_string raises UnicodeDecodeError for every key (the version bytes are added to a unicode literal); partial: a private key serialises correctly on any network object for which it returns"
  },
  {
   "property": "C58",
   "status": "partial",
   "theorems": [
    "Bitforge.C58_hardened",
    "Bitforge.C58_private_refuted",
    "Bitforge.C58_private_error",
    "Bitforge.C58_index_refuted",
    "Bitforge.C58_public_partial",
    "Bitforge.C58_hardened_index_refuted"
   ],
   "note": "refuted: private derivation never returns (no attribute seed), the child key does not depend on the child number asked for, hardened numbers are accepted; partial: a public key derives the BIP32 child for its own index; hardened derivation from a public key is refused"
  },
  {
   "property": "C59",
   "status": "partial",
   "theorems": [
    "Bitforge.C59_satoshis_partial",
    "Bitforge.C59_satoshis_refuted",
    "Bitforge.C59_btc_partial",
    "Bitforge.C59_btc_negative_partial",
    "Bitforge.C59_units_partial",
    "Bitforge.C59_btc_exact_partial",
    "Bitforge.C59_btc_refuted",
    "Bitforge.C59_btc_more_refuted"
   ],
   "note": "satoshis kept for every |n| < 2^1024 - 2^970, OverflowError beyond (refuted there); the trip through btc keeps the amount or loses one satoshi, and is exact for multiples of 1/256 bitcoin; refuted for 3 satoshis and 0.29 bitcoin"
  },
  {
   "property": "C60",
   "status": "partial",
   "theorems": [
    "Bitforge.C60_roundtrip_partial",
    "Bitforge.C60_amount_partial",
    "Bitforge.C60_is_valid_partial",
    "Bitforge.C60_is_valid_address_partial",
    "Bitforge.C60_is_valid_other",
    "Bitforge.C60_is_valid_refuted",
    "Bitforge.C60_is_valid_large_refuted",
    "Bitforge.C60_scheme_refuted",
    "Bitforge.C60_long_amount_refuted",
    "Bitforge.C60_blank_refuted",
    "Bitforge.C60_number_refuted",
    "Bitforge.C60_unicode_refuted",
    "Bitforge.C60_digits_refuted",
    "Bitforge.C60_no_address_refuted",
    "Bitforge.C60_dict",
    "Bitforge.C60_dict_is_valid_partial",
    "Bitforge.C60_dict_none",
    "Bitforge.C60_dict_refuted",
    "Bitforge.C60_none_refuted",
    "Bitforge.C60_is_valid_grammar_partial",
    "Bitforge.C60_authority"
   ],
   "note": "round trip proved for ASCII, non-empty texts; the amount that comes back is exactly the one rounded to 12 significant digits, less at most one satoshi lost as in C59; is_valid raises exactly for amounts that overflow, and True implies an address in the text; refuted: amount=inf raises OverflowError, the scheme is not looked at, amounts over 12 digits change, empty extras vanish, non-ASCII texts raise, a dictionary without a text as address raises AttributeError, a huge amount in it OverflowError, an all-digit address without query does not come back"
  },
  {
   "property": "C61",
   "status": "proved",
   "theorems": [
    "Bitforge.C61_cofactor_one",
    "Bitforge.C61_unique_secret",
    "Bitforge.C61_has_private_key"
   ],
   "note": ""
  },
  {
   "property": "C62",
   "status": "partial",
   "theorems": [
    "Bitforge.C62_sound",
    "Bitforge.C62_complete_partial",
    "Bitforge.C62_unreduced_refuted",
    "Bitforge.C62_infinity_refuted"
   ],
   "note": "every recovered pair verifies (all inputs); the signer's key is recovered when r < n and 2z + d*r is not 0 mod n; refuted in those two cases (empty set / TypeError)"
  },
  {
   "property": "C63",
   "status": "partial",
   "theorems": [
    "Bitforge.C63_partial",
    "Bitforge.C63_refuted"
   ],
   "note": "external library modelled function by function, DER texts included; verify(sign(sha1(m)), m) proved; refuted for the same m on both sides, for every hash function in the place of SHA-1"
  },
  {
   "property": "C64",
   "status": "proved",
   "theorems": [
    "Bitforge.C64_neuter",
    "Bitforge.C64_root"
   ],
   "note": ""
  },
  {
   "property": "C65",
   "status": "proved",
   "theorems": [
    "Bitforge.C65_master",
    "Bitforge.C65_short"
   ],
   "note": ""
  },
  {
   "property": "C66",
   "status": "proved",
   "theorems": [
    "Bitforge.C66_nearest",
    "Bitforge.C66_exact",
    "Bitforge.C66_arguments",
    "Bitforge.C66_whole_btc",
    "Bitforge.C66_zero_rate",
    "Bitforge.C66_at_rate",
    "Bitforge.C66_not_finite"
   ],
   "note": ""
  },
  {
   "property": "C67",
   "status": "partial",
   "theorems": [
    "Bitforge.C67_float",
    "Bitforge.C67_float_error",
    "Bitforge.C67_plain_partial",
    "Bitforge.C67_exponent_refuted",
    "Bitforge.C67_plain_iff_partial",
    "Bitforge.C67_text",
    "Bitforge.C67_read"
   ],
   "note": "proved from 10000 satoshis up (exact for at most 12 digits, within 1e-11 otherwise); refuted below 10000 satoshis, where the text has an exponent"
  },
  {
   "property": "C68",
   "status": "proved",
   "theorems": [
    "Bitforge.C68_from_name",
    "Bitforge.C68_unknown",
    "Bitforge.C68_name",
    "Bitforge.C68_named"
   ],
   "note": "from_name and name are exact against a table written from the protocol"
  },
  {
   "property": "C69",
   "status": "proved",
   "theorems": [
    "Bitforge.C69_integer",
    "Bitforge.C69_length",
    "Bitforge.C69_valid",
    "Bitforge.C69_strict",
    "Bitforge.C69_digest"
   ],
   "note": "external library modelled function by function; proved for every key, digest and nonce in range"
  },
  {
   "property": "C70",
   "status": "partial",
   "theorems": [
    "Bitforge.C70_length",
    "Bitforge.C70_accepts",
    "Bitforge.C70_rejects",
    "Bitforge.C70_partial",
    "Bitforge.C70_sound",
    "Bitforge.C70_never_false",
    "Bitforge.C70_text_refuted"
   ],
   "note": "external library modelled function by function; the accepted texts are characterised exactly (C70_accepts) and the exceptions as well (C70_rejects); refuted: never returns False (raises), and accepts texts that are not DER for every key, hashing with SHA-1"
  },
  {
   "property": "C71",
   "status": "partial",
   "theorems": [
    "Bitforge.C71_partial",
    "Bitforge.C71_exact",
    "Bitforge.C71_refuted",
    "Bitforge.C71_flag"
   ],
   "note": "exact without OP_RESERVED, which is accepted although it pushes nothing (refuted there, as in the reference client); the flag refuses as stated"
  },
  {
   "property": "C72",
   "status": "partial",
   "theorems": [
    "Bitforge.C72_long_partial",
    "Bitforge.C72_none",
    "Bitforge.C72_number",
    "Bitforge.C72_short_refuted",
    "Bitforge.C72_empty_refuted"
   ],
   "note": "exact without data, above 75 bytes, and for single bytes that an opcode pushes (given as str); refuted: AttributeError for all other data of 1 to 75 bytes, and an empty PUSHDATA is called minimal"
  },
  {
   "property": "C73",
   "status": "partial",
   "theorems": [
    "Bitforge.C73_errors_partial",
    "Bitforge.C73_refuted"
   ],
   "note": "refuted for every script and byte string: both always raise; the exception is determined"
  },
  {
   "property": "C74",
   "status": "proved",
   "theorems": [
    "Bitforge.C74_address",
    "Bitforge.C74_script",
    "Bitforge.C74_signer",
    "Bitforge.C74_address_succeeds",
    "Bitforge.C74_script_succeeds"
   ],
   "note": "end to end, from the transaction to ECDSA validity (Mathlib's group law), with PrivateKey.sign as the signer and any nonces in range; signing an AddressInput fails only if the nonce makes r or s zero"
  },
  {
   "property": "C75",
   "status": "partial",
   "theorems": [
    "Bitforge.C75_script_input",
    "Bitforge.C75_input_partial",
    "Bitforge.C75_input_refuted",
    "Bitforge.C75_output",
    "Bitforge.C75_output_idempotent"
   ],
   "note": "Output.create exact; Input.create exact on the two templates it knows; refuted: NameError for every other script that can be classified (OpReturnOut is not imported)"
  },
  {
   "property": "C76",
   "status": "partial",
   "theorems": [
    "Bitforge.C76_to_wif",
    "Bitforge.C76_to_wif_large",
    "Bitforge.C76_reads_partial",
    "Bitforge.C76_roundtrip",
    "Bitforge.C76_agrees",
    "Bitforge.C76_is_valid_partial",
    "Bitforge.C76_suffix_refuted",
    "Bitforge.C76_range_refuted",
    "Bitforge.C76_short_refuted"
   ],
   "note": "writer and round trip proved; exact behaviour of reader and is_valid_wif proved; refuted: any suffix counts as compressed, secrets out of range are valid, ValueError for payloads under 33 bytes"
  },
  {
   "property": "C77",
   "status": "partial",
   "theorems": [
    "Bitforge.C77_to_address",
    "Bitforge.C77_reads",
    "Bitforge.C77_roundtrip",
    "Bitforge.C77_is_valid_partial",
    "Bitforge.C77_raises_partial",
    "Bitforge.C77_script_refuted",
    "Bitforge.C77_prefixes"
   ],
   "note": "exact for addresses of public keys, and exactly when it raises; refuted: addresses of scripts are not valid on the main network and raise UnicodeDecodeError on the test network"
  },
  {
   "property": "C78",
   "status": "partial",
   "theorems": [
    "Bitforge.C78_nonce_partial",
    "Bitforge.C78_unique",
    "Bitforge.C78_sign_partial",
    "Bitforge.C78_order_refuted"
   ],
   "note": "exact, against a separate transcription of RFC 6979 section 3.2, for every digest whose leading bits are not the order; refuted for that digest (`val > n` instead of `>=`)"
  },
  {
   "property": "C79",
   "status": "partial",
   "theorems": [
    "Bitforge.C79_to_bytes",
    "Bitforge.C79_from_bytes_partial",
    "Bitforge.C79_roundtrip",
    "Bitforge.C79_minimal",
    "Bitforge.C79_minimal_negative",
    "Bitforge.C79_int_from_bytes",
    "Bitforge.C79_ecdsa",
    "Bitforge.C79_signed_refuted",
    "Bitforge.C79_bytearray_refuted",
    "Bitforge.C79_from_ints",
    "Bitforge.C79_ints"
   ],
   "note": "exact for unsigned values and str; refuted: with signed, from_bytes always raises, and a non-empty bytearray is a TypeError"
  },
  {
   "property": "C80",
   "status": "partial",
   "theorems": [
    "Bitforge.Interpreter.C80_sound_trace_partial",
    "Bitforge.Interpreter.C80_sound_partial",
    "Bitforge.Interpreter.C80_agree_partial",
    "Bitforge.Interpreter.C80_agree_simple_partial",
    "Bitforge.Interpreter.C80_false_accept_refuted",
    "Bitforge.Interpreter.C80_false_reject_refuted"
   ],
   "note": "against a separate transcription of EvalScript: accepted implies accepted for scripts without OP_IF, OP_NOTIF, OP_IFDUP, OP_DROP, OP_ABS and within the limit on the stack, each of which is necessary; equivalence for runs without numbers, truth values or signatures the code mishandles; refuted in both directions otherwise"
  },
  {
   "property": "C81",
   "status": "partial",
   "theorems": [
    "Bitforge.C81_opcode_order",
    "Bitforge.C81_trichotomy",
    "Bitforge.C81_ne_partial",
    "Bitforge.C81_ne_refuted",
    "Bitforge.C81_equivalence",
    "Bitforge.C81_transaction_hash_partial",
    "Bitforge.C81_hash_congr",
    "Bitforge.C81_parsed_refuted",
    "Bitforge.C81_script_hash_partial",
    "Bitforge.C81_keys_refuted"
   ],
   "note": "order, equality and agreement of hash with equality are proved; refuted: != compares identities in Python 2.7 (no __ne__), parsed scripts with data cannot be hashed, and no network, address or key can be hashed since seeds is a list"
  },
  {
   "property": "C82",
   "status": "partial",
   "theorems": [
    "Bitforge.C82_opcode_partial",
    "Bitforge.C82_nameless_refuted",
    "Bitforge.C82_opcode_injective",
    "Bitforge.C82_script_partial",
    "Bitforge.C82_script_injective",
    "Bitforge.C82_private_key",
    "Bitforge.C82_secret_refuted",
    "Bitforge.C82_private_key_refuted",
    "Bitforge.C82_private_key_partial",
    "Bitforge.C82_public_key",
    "Bitforge.C82_public_key_injective",
    "Bitforge.C82_address",
    "Bitforge.C82_address_injective",
    "Bitforge.C82_unit",
    "Bitforge.C82_uri"
   ],
   "note": "exact texts and injectivity are proved; refuted: opcodes without a name (and scripts with them) raise KeyError, repr of a private key contains the secret and not the compression flag"
  },
  {
   "property": "C83",
   "status": "proved",
   "theorems": [
    "Bitforge.C83_address"
   ],
   "note": "acceptance by a transcription of SignatureHash, CheckSig, EvalScript and VerifyScript; the only exception is a signature equal to the hash of the key (FindAndDelete)"
  },
  {
   "property": "C84",
   "status": "partial",
   "theorems": [
    "Bitforge.C84_iff",
    "Bitforge.C84_multisig_partial",
    "Bitforge.C84_order_refuted"
   ],
   "note": "acceptance is characterised exactly (C84_iff) and proved when keys are given in the order of the public keys; refuted for another order, of which can_sign is true as well. Redeem scripts above 75 bytes cannot be serialised at all (C41)"
  },
  {
   "property": "C85",
   "status": "partial",
   "theorems": [
    "Bitforge.C85_all_partial",
    "Bitforge.C85_types_refuted"
   ],
   "note": "proved for types that mean SIGHASH_ALL; refuted for NONE, SINGLE and every ANYONECANPAY type: the digest is still that of all inputs and outputs, so the reference client refuses the signature"
  },
  {
   "property": "C86",
   "status": "proved",
   "theorems": [
    "Bitforge.C86_text",
    "Bitforge.C86_order",
    "Bitforge.C86_regular"
   ],
   "note": "exact characterisation of the text (an entry without ASCII text makes to_uri raise)"
  },
  {
   "property": "C87",
   "status": "proved",
   "theorems": [
    "Bitforge.Interpreter.C87_step",
    "Bitforge.Interpreter.C87_passes",
    "Bitforge.Interpreter.C87_unique",
    "Bitforge.Interpreter.C87_evaluate",
    "Bitforge.Interpreter.C87_verify",
    "Bitforge.Interpreter.C87_says",
    "Bitforge.Interpreter.C87_separator",
    "Bitforge.Interpreter.C87_locktime"
   ],
   "note": "every non-negative lock time is reported as not reached (C87_locktime), since check_lock_time returns None"
  },
  {
   "property": "C88",
   "status": "partial",
   "theorems": [
    "Bitforge.C88_private_bytes",
    "Bitforge.C88_private_text_partial",
    "Bitforge.C88_address_bytes",
    "Bitforge.C88_address_text_partial",
    "Bitforge.C88_public_bytes",
    "Bitforge.C88_public_text_partial",
    "Bitforge.C88_unicode_refuted",
    "Bitforge.C88_extended_partial",
    "Bitforge.C88_extended_refuted",
    "Bitforge.C88_opcode",
    "Bitforge.C88_script_partial",
    "Bitforge.C88_script_text_partial",
    "Bitforge.C88_transaction_new",
    "Bitforge.C88_transaction_partial",
    "Bitforge.C88_count_refuted",
    "Bitforge.C88_classifier_refuted",
    "Bitforge.C88_digits_refuted"
   ],
   "note": "holds for bytes given to keys and addresses; texts that are not ASCII raise UnicodeEncodeError or UnicodeDecodeError; extended keys raise the EncodingError of the utilities; scripts that trip the classifier raise AttributeError; counts of at least 2^63 raise OverflowError (C117 and C118 say for which inputs exactly)"
  },
  {
   "property": "C89",
   "status": "proved",
   "theorems": [
    "Bitforge.C89_public_key",
    "Bitforge.C89_private_key",
    "Bitforge.C89_text",
    "Bitforge.C89_script",
    "Bitforge.C89_transaction",
    "Bitforge.C89_payload"
   ],
   "note": ""
  },
  {
   "property": "C90",
   "status": "partial",
   "theorems": [
    "Bitforge.C90_network",
    "Bitforge.C90_hex",
    "Bitforge.C90_base58",
    "Bitforge.C90_private_new",
    "Bitforge.C90_private_wif",
    "Bitforge.C90_private_bytes",
    "Bitforge.C90_private_hex",
    "Bitforge.C90_public_new",
    "Bitforge.C90_public_bytes",
    "Bitforge.C90_public_hex",
    "Bitforge.C90_address_new",
    "Bitforge.C90_address_bytes",
    "Bitforge.C90_address_text",
    "Bitforge.C90_address_hex",
    "Bitforge.C90_script_number",
    "Bitforge.C90_read",
    "Bitforge.C90_opcode_make",
    "Bitforge.C90_opcode_from_name",
    "Bitforge.C90_opcode_type",
    "Bitforge.C90_opcode_push",
    "Bitforge.C90_instruction",
    "Bitforge.C90_script",
    "Bitforge.C90_transaction",
    "Bitforge.C90_sign",
    "Bitforge.C90_data",
    "Bitforge.C90_literal",
    "Bitforge.C90_string_injective",
    "Bitforge.C90_number_injective",
    "Bitforge.C90_str",
    "Bitforge.C90_ascii",
    "Bitforge.C90_output_refuted",
    "Bitforge.C90_str_refuted",
    "Bitforge.C90_secret_refuted",
    "Bitforge.C90_nameless_refuted"
   ],
   "note": "holds for all modelled functions, except that NotAnOutput speaks of Inputs, that str(e) fails if the name of an unknown network is not ASCII, that InvalidCompressionByte shows the WIF with its secret, and that opcodes without a name cannot be mentioned; the text of a pair of coordinates and of foreign objects is a parameter"
  },
  {
   "property": "C91",
   "status": "partial",
   "theorems": [
    "Bitforge.C91_order_check",
    "Bitforge.C91_operations",
    "Bitforge.C91_eq_partial",
    "Bitforge.C91_equivalence",
    "Bitforge.C91_eq_refuted",
    "Bitforge.C91_curves_refuted",
    "Bitforge.C91_computed_refuted",
    "Bitforge.C91_order_refuted",
    "Bitforge.C91_ne_refuted",
    "Bitforge.C91_reduced_partial",
    "Bitforge.C91_secp",
    "Bitforge.C91_str",
    "Bitforge.C91_curve_str",
    "Bitforge.C91_incomplete"
   ],
   "note": "== is an equivalence and right for reduced coordinates; sums and doubles are reduced, and multiples if the declared order is the true one and odd, hence always on secp256k1; refuted: the declared order is not checked, (x + p, y) is accepted, differs from (x, y) and cannot be added to it, 35*P != 8*P for a point of order 9, points of two curve objects with the same parameters, != and hash look at addresses"
  },
  {
   "property": "C92",
   "status": "proved",
   "theorems": [
    "Bitforge.C92_build",
    "Bitforge.C92_transfer",
    "Bitforge.C92_run"
   ],
   "note": "end to end, by an invariant of the loop that signs the inputs; composes C20, C32-C37, C74 and C83; the exception is a signature that equals the hash of the key"
  },
  {
   "property": "C93",
   "status": "partial",
   "theorems": [
    "Bitforge.C93_compile_partial",
    "Bitforge.C93_refusals",
    "Bitforge.C93_shape_refuted",
    "Bitforge.C93_empty_refuted",
    "Bitforge.C93_templates"
   ],
   "note": "false of the code for shapes that make the classifier raise and for the empty byte string; otherwise exact, with the exception raised"
  },
  {
   "property": "C94",
   "status": "partial",
   "theorems": [
    "Bitforge.C94_outputs",
    "Bitforge.C94_deposit",
    "Bitforge.C94_spend_partial",
    "Bitforge.C94_size",
    "Bitforge.C94_bare_refuted"
   ],
   "note": "false of the code: what MultisigOutput pays cannot be spent with MultisigInput; for ScriptOutput it holds for one key or two compressed keys in order (C41 and C84 refute the rest)"
  },
  {
   "property": "C95",
   "status": "proved",
   "theorems": [
    "Bitforge.C95_cut",
    "Bitforge.C95_parts",
    "Bitforge.C95_serialised",
    "Bitforge.C95_hex"
   ],
   "note": "compositional: holds of every reader built with bind from reads"
  },
  {
   "property": "C96",
   "status": "proved",
   "theorems": [
    "Bitforge.C96_address",
    "Bitforge.C96_wif",
    "Bitforge.C96_extended",
    "Bitforge.C96_disjoint",
    "Bitforge.C96_hex"
   ],
   "note": "the leading digits of base-58 numerals follow from bounds on the number"
  },
  {
   "property": "C97",
   "status": "proved",
   "theorems": [
    "Bitforge.Interpreter.C97_evaluate",
    "Bitforge.Interpreter.C97_monotone",
    "Bitforge.Interpreter.C97_soft",
    "Bitforge.Interpreter.C97_only",
    "Bitforge.Interpreter.C97_needed"
   ],
   "note": "a simulation between the runs under two sets of flags, by induction over the loop"
  },
  {
   "property": "C98",
   "status": "partial",
   "theorems": [
    "Bitforge.C98_form",
    "Bitforge.C98_locked_partial",
    "Bitforge.C98_pair_partial",
    "Bitforge.C98_four",
    "Bitforge.C98_verify_refuted",
    "Bitforge.C98_text_refuted",
    "Bitforge.C98_small_partial",
    "Bitforge.C98_sign_refuted",
    "Bitforge.C98_nonce",
    "Bitforge.C98_transaction_refuted"
   ],
   "note": "false: (r, n - s) is valid whenever (r, s) is, for verify, for PrivateKey.verify, for sign with the opposite nonce, and in transactions that are accepted by the reference client without LOW_S. Proved: there is no other with r of at least p - n, at most four in any case, one small s; PrivateKey.sign gives the same text with the opposite nonce; under the rules that nodes apply to what they relay (LOW_S, SIGPUSHONLY, MINIMALDATA, CLEANSTACK) the input has one form for each signature, and one with the same r and type is the same or collides"
  },
  {
   "property": "C99",
   "status": "partial",
   "theorems": [
    "Bitforge.C99_reveals",
    "Bitforge.C99_refuted",
    "Bitforge.C99_same_partial",
    "Bitforge.C99_seed_partial"
   ],
   "note": "false: sign drops what exceeds 256 bits of the value when it makes the nonce, so z and z + 2^256 share one (z above the order) and the key follows by the formula of C99_reveals. Proved for digests of 32 bytes"
  },
  {
   "property": "C100",
   "status": "partial",
   "theorems": [
    "Bitforge.Interpreter.C100_evaluate_partial",
    "Bitforge.Interpreter.C100_drop_refuted",
    "Bitforge.Interpreter.C100_prepend_partial"
   ],
   "note": "false for OP_DROP, which takes two elements when there are two; proved for scripts without it, by a simulation over all opcodes"
  },
  {
   "property": "C101",
   "status": "proved",
   "theorems": [
    "Bitforge.Interpreter.C101_sequence",
    "Bitforge.Interpreter.C101_push_only",
    "Bitforge.Interpreter.C101_apart"
   ],
   "note": "the loop over program counters is shown to be a fold over the list of instructions; the simulation of C100 with nothing below gives that the place of an instruction does not matter"
  },
  {
   "property": "C102",
   "status": "proved",
   "theorems": [
    "Bitforge.Interpreter.C102_depth",
    "Bitforge.Interpreter.C102_elements",
    "Bitforge.Interpreter.C102_script",
    "Bitforge.Interpreter.C102_peak",
    "Bitforge.Interpreter.C102_verify",
    "Bitforge.Interpreter.C102_tight"
   ],
   "note": "an invariant of every opcode; the reference client looks at the limit of 1000 after every instruction, this code when a script has ended, so that 1603 is the bound, and C102_tight reaches it"
  },
  {
   "property": "C103",
   "status": "proved",
   "theorems": [
    "Bitforge.C103_size",
    "Bitforge.C103_sign",
    "Bitforge.C103_address",
    "Bitforge.C103_payment"
   ],
   "note": "the lengths of the parts are measured on the model's serialisation; the bound of 72 comes from the normal form of s that sign makes and the minimality of DER"
  },
  {
   "property": "C104",
   "status": "proved",
   "theorems": [
    "Bitforge.C104_parallel",
    "Bitforge.C104_order",
    "Bitforge.C104_once",
    "Bitforge.C104_digest"
   ],
   "note": "indices counted from 0; C40_negative_refuted shows that a negative index returns a transaction in which nothing is signed"
  },
  {
   "property": "C105",
   "status": "proved",
   "theorems": [
    "Bitforge.C105_owns",
    "Bitforge.C105_chain",
    "Bitforge.C105_texts",
    "Bitforge.C105_progress"
   ],
   "note": "the identifier of an output is the reversed hash, which get_id does not give (C44); acceptance supposes that the signature is not the 20 bytes of the hash of the key, as in C83"
  },
  {
   "property": "C106",
   "status": "proved",
   "theorems": [
    "Bitforge.C106_address",
    "Bitforge.C106_address_iff",
    "Bitforge.C106_script",
    "Bitforge.C106_unverified",
    "Bitforge.C106_multisig",
    "Bitforge.C106_bare",
    "Bitforge.C106_bare_iff",
    "Bitforge.C106_data",
    "Bitforge.C106_misdirected"
   ],
   "note": "against the reference client of Verif/Spec/Consensus.lean; that signatures are hard to make without the key is not a theorem about the code"
  },
  {
   "property": "C107",
   "status": "partial",
   "theorems": [
    "Bitforge.C107_digests_partial",
    "Bitforge.C107_digests_refuted",
    "Bitforge.C107_four",
    "Bitforge.C107_address",
    "Bitforge.C107_multisig"
   ],
   "note": "false as stated: a signature of z by d is also one of -z-2rd (modulo n), so one more alternative is needed: the second digest hits this value, or z itself modulo n, or r is below p-n. Missing for the full claim: nothing else; these coincidences are named with the two texts"
  },
  {
   "property": "C108",
   "status": "proved",
   "theorems": [
    "Bitforge.C108_refused",
    "Bitforge.C108_total",
    "Bitforge.C108_words"
   ],
   "note": "the relation Refused lists the reasons; some are exceptions of Python (UnicodeEncodeError, ValueError), see C88"
  },
  {
   "property": "C109",
   "status": "proved",
   "theorems": [
    "Bitforge.C109_parse",
    "Bitforge.C109_refused",
    "Bitforge.C109_read",
    "Bitforge.C109_means"
   ],
   "note": "the relations ReadsAs and NoUri are complete and exclude each other; the grammar is that of Python 2.7's urlparse, not that of BIP 21 (see C60)"
  },
  {
   "property": "C110",
   "status": "partial",
   "theorems": [
    "Bitforge.C110_partial",
    "Bitforge.C110_required_refuted",
    "Bitforge.C110_utf8_refuted",
    "Bitforge.C110_semicolon_refuted",
    "Bitforge.C110_plus_refuted",
    "Bitforge.C110_amount_refuted",
    "Bitforge.C110_negative_refuted"
   ],
   "note": "proved for requests with ASCII parameters without plus signs and semicolons, up to one satoshi; the code misreads the others and accepts unknown required parameters and negative amounts"
  },
  {
   "property": "C111",
   "status": "partial",
   "theorems": [
    "Bitforge.C111_path_partial",
    "Bitforge.C111_reach_partial",
    "Bitforge.C111_owner",
    "Bitforge.C111_last_refuted",
    "Bitforge.C111_path_refuted",
    "Bitforge.C111_overflow_refuted"
   ],
   "note": "the key returned is the one at the path shifted by one place: the index of k takes the first place and the last number asked for is only a label (proved for all paths, both ways); refuted: the path asked for, and children that BIP 32 declares invalid are returned"
  },
  {
   "property": "C112",
   "status": "partial",
   "theorems": [
    "Bitforge.C112_iff_partial",
    "Bitforge.C112_payment_partial",
    "Bitforge.C112_payment",
    "Bitforge.C112_twice_refuted",
    "Bitforge.C112_money_refuted"
   ],
   "note": "exact for every transaction that can be serialised and for the payments; refuted: a coin given twice and amounts above the limit are signed all the same; enough conditions on the coins and payments in C112_payment"
  },
  {
   "property": "C113",
   "status": "partial",
   "theorems": [
    "Bitforge.Relay.C113_signed",
    "Bitforge.Relay.C113_spend",
    "Bitforge.Relay.C113_spend_refuted",
    "Bitforge.C113_address",
    "Bitforge.C113_script",
    "Bitforge.C113_data",
    "Bitforge.C113_multisig_partial",
    "Bitforge.C113_keys_refuted",
    "Bitforge.C113_count_refuted",
    "Bitforge.C113_transfer",
    "Bitforge.C113_payment_partial",
    "Bitforge.C113_payment",
    "Bitforge.C113_dust_refuted"
   ],
   "note": "exact for all output constructors, for the payments and for signed ScriptInputs and MultisigInputs (at most 1650 bytes); refuted: MultisigOutput with four or more keys or with more keys asked for than there are, amounts below dust, scripts and signatures of more than 1650 bytes"
  },
  {
   "property": "C114",
   "status": "partial",
   "theorems": [
    "Bitforge.C114_iff",
    "Bitforge.C114_obeyed_partial",
    "Bitforge.C114_default_refuted",
    "Bitforge.C114_sign",
    "Bitforge.C114_payment"
   ],
   "note": "exact for every transaction; refuted: by default all sequence numbers are final, so that the lock time has no effect"
  },
  {
   "property": "C115",
   "status": "partial",
   "theorems": [
    "Bitforge.C115_request_partial",
    "Bitforge.C115_paid_partial",
    "Bitforge.C115_script_refuted",
    "Bitforge.C115_negative_refuted"
   ],
   "note": "proved for addresses of keys, up to the last satoshi and 12 digits, down to the chain of payments of C105; refuted: a request for the address of a script is paid to a key hash, a request for a negative amount is accepted and pays nothing"
  },
  {
   "property": "C116",
   "status": "partial",
   "theorems": [
    "Bitforge.C116_from_fiat_partial",
    "Bitforge.C116_whole_partial",
    "Bitforge.C116_monotone",
    "Bitforge.C116_negative",
    "Bitforge.C116_at_rate",
    "Bitforge.C116_roundtrip_partial",
    "Bitforge.C116_lost_refuted",
    "Bitforge.C116_rate_refuted",
    "Bitforge.C116_errors"
   ],
   "note": "the order, the signs, the worth and the errors are proved in full; the number of satoshis up to a relative error of 2^-51 and there and back up to one satoshi, for up to 21 million bitcoins; refuted: three satoshis at rate 1 come back as two, and at a rate near the smallest float everything is lost"
  },
  {
   "property": "C117",
   "status": "proved",
   "theorems": [
    "Bitforge.C117_script",
    "Bitforge.C117_input",
    "Bitforge.C117_output",
    "Bitforge.C117_transaction",
    "Bitforge.C117_decided",
    "Bitforge.C117_hex",
    "Bitforge.C117_exceptions"
   ],
   "note": "proved in both directions; at most one reason applies to a string and one applies exactly when the string does not begin with a readable transaction (C117_decided)"
  },
  {
   "property": "C118",
   "status": "proved",
   "theorems": [
    "Bitforge.C118_private_bytes",
    "Bitforge.C118_wif",
    "Bitforge.C118_address_bytes",
    "Bitforge.C118_public_bytes",
    "Bitforge.C118_private_hex",
    "Bitforge.C118_address_hex",
    "Bitforge.C118_public_hex",
    "Bitforge.C118_address_text",
    "Bitforge.C118_extended_private",
    "Bitforge.C118_extended_public",
    "Bitforge.C118_extended_exceptions"
   ],
   "note": "proved as equality of each reader with a relation given by cases (C118_*); the relations show what is not checked: bytes after a public key or an extended key, the byte before the secret in an extended private key, and coordinates not below p"
  },
  {
   "property": "C119",
   "status": "proved",
   "theorems": [
    "Bitforge.C119_instruction",
    "Bitforge.C119_script",
    "Bitforge.C119_input",
    "Bitforge.C119_output",
    "Bitforge.C119_transaction",
    "Bitforge.C119_hex",
    "Bitforge.C119_hashes",
    "Bitforge.C119_private",
    "Bitforge.C119_wif",
    "Bitforge.C119_public",
    "Bitforge.C119_public_hex",
    "Bitforge.C119_address",
    "Bitforge.C119_address_text",
    "Bitforge.C119_xprv",
    "Bitforge.C119_xpub"
   ],
   "note": "proved as equality of each writer with a relation given by cases (C119_*), without any hypothesis on the objects; the relations show what is not checked: the width of identifiers, numbers out of range, and the length of data in direct pushes"
  },
  {
   "property": "C120",
   "status": "proved",
   "theorems": [
    "Bitforge.C120_input",
    "Bitforge.C120_transaction"
   ],
   "note": "proved as equality of sign with a relation given by cases (C120_input, C120_transaction); the only hypothesis is that the keys were made by PrivateKey"
  },
  {
   "property": "C121",
   "status": "proved",
   "theorems": [
    "Bitforge.C121_pubkey_out",
    "Bitforge.C121_script_out",
    "Bitforge.C121_return",
    "Bitforge.C121_pubkey_in",
    "Bitforge.C121_script_in",
    "Bitforge.C121_multisig",
    "Bitforge.C121_outputs",
    "Bitforge.C121_inputs",
    "Bitforge.C121_address_can_sign",
    "Bitforge.C121_multisig_can_sign"
   ],
   "note": "proved as equality of each create and can_sign with a relation given by cases; for can_sign the only hypothesis is that the keys were made by PrivateKey"
  },
  {
   "property": "C122",
   "status": "proved",
   "theorems": [
    "Bitforge.C122_new",
    "Bitforge.C122_public",
    "Bitforge.C122_private"
   ],
   "note": "proved as equality of each function with a relation given by cases (C122_new, C122_public, C122_private); that the child is not the one of BIP 32 is C58"
  },
  {
   "property": "C123",
   "status": "proved",
   "theorems": [
    "Bitforge.Interpreter.C123_step",
    "Bitforge.Interpreter.C123_either",
    "Bitforge.Interpreter.C123_evaluate",
    "Bitforge.Interpreter.C123_verify",
    "Bitforge.Interpreter.C123_raises"
   ],
   "note": "proved as equality of step, evaluate and verify with relations given by cases (C123_step, C123_evaluate, C123_verify, C123_raises), which do not mention the functions; with C87, the failures, C123_either says the cases exclude each other and are all"
  },
  {
   "property": "C124",
   "status": "proved",
   "theorems": [
    "Bitforge.C124_opcode",
    "Bitforge.C124_name",
    "Bitforge.C124_is_number",
    "Bitforge.C124_number_value",
    "Bitforge.C124_for_number",
    "Bitforge.C124_kinds",
    "Bitforge.C124_count",
    "Bitforge.C124_direct",
    "Bitforge.C124_counted",
    "Bitforge.C124_push",
    "Bitforge.C124_instruction",
    "Bitforge.C124_push_instruction",
    "Bitforge.C124_minimal",
    "Bitforge.C124_equal",
    "Bitforge.C124_text",
    "Bitforge.C124_script_text"
   ],
   "note": "proved as equality of each function with a relation given by cases; the relations use the wire format, the table of names and canonical decimal digits (decimal_iff: a number is written in one way)"
  },
  {
   "property": "C125",
   "status": "proved",
   "theorems": [
    "Bitforge.C125_secret",
    "Bitforge.C125_pair",
    "Bitforge.C125_address",
    "Bitforge.C125_public",
    "Bitforge.C125_address_of",
    "Bitforge.C125_address_of_secret",
    "Bitforge.C125_address_of_script",
    "Bitforge.C125_extended",
    "Bitforge.C125_neuter",
    "Bitforge.C125_derive",
    "Bitforge.C125_inside",
    "Bitforge.C125_root"
   ],
   "note": "proved as equality of each function with a relation given by cases; the secret is taken modulo the order of the group, so that secrets out of range, which only a key made without its constructor has, are covered"
  },
  {
   "property": "C126",
   "status": "proved",
   "theorems": [
    "Bitforge.Amounts.C126_product",
    "Bitforge.Amounts.C126_quotient",
    "Bitforge.Amounts.C126_amount",
    "Bitforge.Amounts.C126_fiat",
    "Bitforge.Amounts.C126_at_rate"
   ],
   "note": "proved as equality of each function with a relation given by cases; rounding is stated as the nearest binary64 number, ties to even, which is unique (rounded64_unique); the sign of zero is not modelled"
  },
  {
   "property": "C127",
   "status": "proved",
   "theorems": [
    "Bitforge.Codecs.C127_int",
    "Bitforge.Codecs.C127_value",
    "Bitforge.Codecs.C127_varint",
    "Bitforge.Codecs.C127_read",
    "Bitforge.Codecs.C127_read_varint",
    "Bitforge.Codecs.C127_hex",
    "Bitforge.Codecs.C127_to_hex",
    "Bitforge.Codecs.C127_base58",
    "Bitforge.Codecs.C127_check",
    "Bitforge.Codecs.C127_number",
    "Bitforge.Codecs.C127_to_number",
    "Bitforge.Codecs.C127_word",
    "Bitforge.Codecs.C127_from_word",
    "Bitforge.Codecs.C127_pair",
    "Bitforge.Codecs.C127_from_sec",
    "Bitforge.Codecs.C127_compressed",
    "Bitforge.Codecs.C127_wif_parts",
    "Bitforge.Codecs.C127_wif_secret",
    "Bitforge.Codecs.C127_wif_valid",
    "Bitforge.Codecs.C127_to_wif",
    "Bitforge.Codecs.C127_address_parts",
    "Bitforge.Codecs.C127_address_hash",
    "Bitforge.Codecs.C127_address_valid",
    "Bitforge.Codecs.C127_to_address",
    "Bitforge.Codecs.C127_ints",
    "Bitforge.Codecs.C127_to_bytes",
    "Bitforge.Codecs.C127_from_bytes",
    "Bitforge.Codecs.C127_least"
   ],
   "note": "proved as equality of each function with a relation given by cases, for arguments of the types modelled (the text functions take unicode)"
  },
  {
   "property": "C128",
   "status": "proved",
   "theorems": [
    "Bitforge.Ecdsas.C128_public",
    "Bitforge.Ecdsas.C128_abscissa",
    "Bitforge.Ecdsas.C128_valid",
    "Bitforge.Ecdsas.C128_sign",
    "Bitforge.Ecdsas.C128_verify",
    "Bitforge.Ecdsas.C128_recover",
    "Bitforge.Ecdsas.C128_two"
   ],
   "note": "proved as equality of each function with a relation given by cases over Mathlib's group of the curve, for all integers, whatever representative of an abscissa modulo p is given"
  },
  {
   "property": "C129",
   "status": "proved",
   "theorems": [
    "Bitforge.Scripts.C129_classify",
    "Bitforge.Scripts.C129_is_valid",
    "Bitforge.Scripts.C129_create",
    "Bitforge.Scripts.C129_bytes",
    "Bitforge.Scripts.C129_text",
    "Bitforge.Scripts.C129_compile",
    "Bitforge.Scripts.C129_data",
    "Bitforge.Scripts.C129_key",
    "Bitforge.Scripts.C129_threshold",
    "Bitforge.Scripts.C129_redeem",
    "Bitforge.Scripts.C129_signatures",
    "Bitforge.Scripts.C129_keys",
    "Bitforge.Scripts.C129_edit"
   ],
   "note": "proved as equality of each function with a relation given by cases, without any hypothesis on the instructions"
  },
  {
   "property": "C130",
   "status": "proved",
   "theorems": [
    "Bitforge.Txs.C130_output_create",
    "Bitforge.Txs.C130_input_create",
    "Bitforge.Txs.C130_new",
    "Bitforge.Txs.C130_replace",
    "Bitforge.Txs.C130_input",
    "Bitforge.Txs.C130_output",
    "Bitforge.Txs.C130_input_bytes",
    "Bitforge.Txs.C130_output_bytes",
    "Bitforge.Txs.C130_transaction",
    "Bitforge.Txs.C130_transaction_bytes",
    "Bitforge.Txs.C130_hex"
   ],
   "note": "proved as equality of each function with a relation given by cases; the exceptions that are not documented are NameError of Input.create (C75), AttributeError of the classifier (C32) and OverflowError from 2**63 counted elements"
  },
  {
   "property": "C131",
   "status": "proved",
   "theorems": [
    "Bitforge.Numbers.C131_inverse",
    "Bitforge.Numbers.C131_symbol",
    "Bitforge.Numbers.C131_legendre",
    "Bitforge.Numbers.C131_root",
    "Bitforge.Numbers.C131_cases",
    "Bitforge.Numbers.C131_ends",
    "Bitforge.Numbers.C131_three",
    "Bitforge.Numbers.C131_prime"
   ],
   "note": "proved of a model with integer moduli, which agrees with that of C21 and C22 for positive ones; composite moduli that are 1 modulo 4 can give a number that is not a root (16 modulo 85), which the documentation excludes"
  },
  {
   "property": "C132",
   "status": "proved",
   "theorems": [
    "Bitforge.Points.C132_mul",
    "Bitforge.Points.C132_double",
    "Bitforge.Points.C132_make",
    "Bitforge.Points.C132_objects",
    "Bitforge.Points.C132_order_two"
   ],
   "note": "the exact failures behind the refutation of C23; for coordinates 0 <= x < p, as C23"
  },
  {
   "property": "C133",
   "status": "proved",
   "theorems": [
    "Bitforge.Prints.C133_opcode",
    "Bitforge.Prints.C133_instruction",
    "Bitforge.Prints.C133_script",
    "Bitforge.Prints.C133_equal",
    "Bitforge.Prints.C133_hash",
    "Bitforge.Prints.C133_uri",
    "Bitforge.Prints.C133_uri_made"
   ],
   "note": "exact texts, equality and hashes; the text that to_uri returns is that of C86, those of keys, addresses and units are in C82"
  },
  {
   "property": "C134",
   "status": "partial",
   "theorems": [
    "Bitforge.One.C134_bytes_partial",
    "Bitforge.One.C134_hex_partial",
    "Bitforge.One.C134_bytes_refuted",
    "Bitforge.One.C134_hex_or_base58",
    "Bitforge.One.C134_script_text"
   ],
   "note": "false for one pair: the bytes of a transaction whose version is 2, 3 or 4 modulo 256 can be accepted as a public key too, since what follows the coordinates is not looked at; every other pair is proved disjoint"
  },
  {
   "property": "C135",
   "status": "partial",
   "theorems": [
    "Bitforge.Settle.C135_script_bytes",
    "Bitforge.Settle.C135_script_text",
    "Bitforge.Settle.C135_input",
    "Bitforge.Settle.C135_output",
    "Bitforge.Settle.C135_transaction",
    "Bitforge.Settle.C135_keys",
    "Bitforge.Settle.C135_public",
    "Bitforge.Settle.C135_uri_refuted",
    "Bitforge.Settle.C135_uri_partial"
   ],
   "note": "false of URIs: 59 satoshis become 58, then 57. Proved for URIs: an amount from 0 to 10000 bitcoins loses at most a satoshi a round and settles, everything else is the same at once. Proved in full for all others (extended keys are never written, see C57)"
  },
  {
   "property": "C136",
   "status": "proved",
   "theorems": [
    "Bitforge.AnyPoint.C136_double",
    "Bitforge.AnyPoint.C136_twisted",
    "Bitforge.AnyPoint.C136_add",
    "Bitforge.AnyPoint.C136_mul",
    "Bitforge.AnyPoint.C136_not_alone"
   ],
   "note": "complements C132, which has abscissas in [0, p)"
  },
  {
   "property": "C137",
   "status": "proved",
   "theorems": [
    "Bitforge.Texts.C137_curve",
    "Bitforge.Texts.C137_point",
    "Bitforge.Texts.C137_curve_unique",
    "Bitforge.Texts.C137_point_unique",
    "Bitforge.Texts.C137_repr",
    "Bitforge.Texts.C137_refused"
   ],
   "note": "whether a number is int or long is a parameter, since it depends on how it was computed"
  },
  {
   "property": "C138",
   "status": "partial",
   "theorems": [
    "Bitforge.Inputs.C138_script",
    "Bitforge.Inputs.C138_multisig",
    "Bitforge.Inputs.C138_address",
    "Bitforge.Inputs.C138_outputs",
    "Bitforge.Inputs.C138_inputs",
    "Bitforge.Inputs.C138_payment",
    "Bitforge.Inputs.C138_bare_refuted"
   ],
   "note": "exact for all three classes of inputs and for the counts of all outputs; refuted: more than two hundred outputs of MultisigOutput are not relayed; a MultisigInput signed with more or fewer keys than it asks for is not either (C138_multisig)"
  },
  {
   "property": "C139",
   "status": "partial",
   "theorems": [
    "Bitforge.Foreign.C139_outputs",
    "Bitforge.Foreign.C139_inputs",
    "Bitforge.Foreign.C139_pushes",
    "Bitforge.Foreign.C139_read_partial",
    "Bitforge.Foreign.C139_read_refuted"
   ],
   "note": "every output of a relayed transaction is readable, and so are inputs that spend payments to keys, or push nothing first and then data; refuted: an input that pushes four times to spend the hash of a script raises AttributeError, though the reference client accepts it"
  },
  {
   "property": "C140",
   "status": "partial",
   "theorems": [
    "Bitforge.Hand.C140_alike",
    "Bitforge.Hand.C140_handed",
    "Bitforge.Hand.C140_hands",
    "Bitforge.Hand.C140_chain_partial",
    "Bitforge.Hand.C140_complete_partial",
    "Bitforge.Hand.C140_owners_partial",
    "Bitforge.Hand.C140_can_sign_partial",
    "Bitforge.Hand.C140_can_sign_refuted",
    "Bitforge.Hand.C140_read_refuted"
   ],
   "note": "refuted: from_bytes makes plain inputs, which can never be signed; proved, for any number of signers, if each is told the classes of the inputs and makes them again with the fields that were read, and the transaction can be written and read at the start and at the end (always, for owners of addresses); AddressInput.can_sign then tells the next signer the same, while MultisigInput.can_sign raises where it said yes, since the keys that were read are of type bytearray"
  },
  {
   "property": "C141",
   "status": "partial",
   "theorems": [
    "Bitforge.Nets.C141_kept_partial",
    "Bitforge.Nets.C141_read",
    "Bitforge.Nets.C141_bytes_refuted",
    "Bitforge.Nets.C141_extended_refuted",
    "Bitforge.Nets.C141_outputs_refuted",
    "Bitforge.Nets.C141_sign_refuted",
    "Bitforge.Nets.C141_several_refuted"
   ],
   "note": "proved for all sequences of steps that keep or write the network; refuted: bytes and hexadecimal digits of keys are read as keys of the main network, extended keys made with a key of the test network belong to the main network unless told otherwise, outputs, inputs and signatures are the same for both networks, and MultisigInput.can_sign never says yes to a key of the test network"
  },
  {
   "property": "C142",
   "status": "partial",
   "theorems": [
    "Bitforge.Found.C142_output",
    "Bitforge.Found.C142_script_partial",
    "Bitforge.Found.C142_script_refuted",
    "Bitforge.Found.C142_open_refuted",
    "Bitforge.Found.C142_received",
    "Bitforge.Found.C142_spend_refuted",
    "Bitforge.Found.C142_stuck_refuted",
    "Bitforge.Found.C142_spend_partial",
    "Bitforge.Found.C142_claimed_partial"
   ],
   "note": "proved for payments to keys; for payments to scripts none is missed, but refuted: an output that pushes the hash by OP_PUSHDATA1 is found although it is no payment to the script and is open to everyone who knows the script, without signatures; and a payment to a key that pushes the hash by OP_PUSHDATA1 is found, but AddressInput signs another script than the one paid to, and nodes that require minimal pushes accept no input for it; with the opcode 20 the signed input is accepted by the reference client"
  },
  {
   "property": "C143",
   "status": "partial",
   "theorems": [
    "Bitforge.Watch.C143_key_partial",
    "Bitforge.Watch.C143_paid_partial",
    "Bitforge.Watch.C143_derive_refuted",
    "Bitforge.Watch.C143_same_refuted",
    "Bitforge.Watch.C143_apart"
   ],
   "note": "proved: the secret exists, is the only one, is given by CKDpriv of BIP 32 along the shifted path of C111, and spends what was paid (exception of C83); refuted: HDPrivateKey.derive never gives it, and all addresses under one parent are the same"
  },
  {
   "property": "C144",
   "status": "partial",
   "theorems": [
    "Bitforge.Sender.C144_sender_partial",
    "Bitforge.Sender.C144_read",
    "Bitforge.Sender.C144_mine_partial",
    "Bitforge.Sender.C144_key_refuted",
    "Bitforge.Sender.C144_network_refuted"
   ],
   "note": "proved: all such inputs are read, with their class and signature, and the data of the second instruction are the key, read as str; refuted: get_public_key raises InvalidBinary for every such input, and for scripts that were made gives keys of the main network only"
  },
  {
   "property": "C145",
   "status": "partial",
   "theorems": [
    "Bitforge.Signers.C145_form",
    "Bitforge.Signers.C145_signers_partial",
    "Bitforge.Signers.C145_keys_refuted",
    "Bitforge.Signers.C145_bare_form",
    "Bitforge.Signers.C145_bare_refuted"
   ],
   "note": "proved: the form of all such inputs (NodeRules of C98, with P2SH and NULLDUMMY), that they are read, their class, signatures and script; refuted: get_public_keys raises InvalidBinary for every multisig script that was read; and an input that spends a MultisigOutput with two signatures or more is taken for a PayToScriptIn, whose get_script reads the last signature as a script"
  },
  {
   "property": "C146",
   "status": "partial",
   "theorems": [
    "Bitforge.Published.C146_output",
    "Bitforge.Published.C146_one",
    "Bitforge.Published.C146_read",
    "Bitforge.Published.C146_carried",
    "Bitforge.Published.C146_unspendable",
    "Bitforge.Published.C146_client_partial",
    "Bitforge.Published.C146_client_refuted",
    "Bitforge.Published.C146_limit_refuted"
   ],
   "note": "proved: what is found, that it is one thing, is read back for 1 to 75 bytes and cannot be spent; refuted: OP_RETURN alone or with OP_0 to OP_16 is data for the reference client and is not found, and data of more than 80 bytes are found, which DataOutput refuses to make and the reference client does not take for data"
  }
 ]
}