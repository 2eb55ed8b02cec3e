{
"C08": "encode/decode proved for every integer the decoder's limit admits; the documented 4-byte range is refuted: the code tests len >= size, so size=4 admits 3 bytes",
"C19": "a 33/65-byte string that parses has one of the accepted prefixes and decodes to that exact point (partial); refuted for trailing bytes after the x/y slices and for coordinates >= p, both of which are accepted",
"C23": "add, double and multiply agree with Mathlib's group for every point that has no multiple of order 2 and every curve over a prime field p > 3; refuted for points of order 2, where double raises AssertionError",
"C24": "verify returns (r < n) on every signature sign makes, for every hash function and nonce; refuted when x(kG) lies in [n, p): sign does not reduce r",
"C62": "every recovered pair verifies (all inputs); the signer's key is recovered when r < n and 2z + d*r is not 0 mod n; refuted in those two cases (empty set / TypeError)",
"C63": "external library modelled function by function, DER texts included; verify(sign(sha1(m)), m) proved; refuted for the same m on both sides, for every hash function in the place of SHA-1",
"C28": "round trip proved for every well-formed script without PUSHDATA whose shape does not trip RedeemMultisig.is_valid, and the outcome is determined in the other cases; refuted: PUSHDATA cannot be serialised (TypeError), four pushes cannot be parsed (AttributeError)",
"C29": "proved when the parsed script has no PUSHDATA opcode; parsing is injective without restriction; refuted for PUSHDATA (TypeError)",
"C30": "truncated inputs always give InsufficientData; complete inputs parse except for an exactly characterised set of shapes (refuted there: AttributeError)",
"C31": "what from_string reads is exactly what the words spell (grammar in Spec/Names.lean: names, decimal sizes in the digits of any script, 0x-hex of either case, single spaces), and printing reads back, except for a characterised set of shapes (refuted there: AttributeError from the classifier); nameless opcodes always give KeyError",
"C32": "exclusive and exact for all scripts; create/getters proved for all arguments the code can push; refuted for no signatures / no keys, and get_public_key on parsed scripts always raises",
"C34": "exact bytes and round trip proved for every in-range transaction without PUSHDATA whose scripts do not trip the classifier, and the outcome is determined otherwise; refuted: PUSHDATA cannot be serialised, four-push scripts cannot be parsed",
"C36": "exactly the strings that begin with a readable transaction, counts in any width, are parsed (C36_domain, C36_reads); a parsed transaction is in range and its serialisation is a string no longer than the input, equal if as long; refuted: trailing bytes and non-minimal counts are accepted",
"C40": "proved for indices from 0 up, out-of-range indices, plain, parsed and already signed inputs; refuted: a negative in-range index returns the transaction unsigned. The signer is an oracle",
"C41": "proved when every redeem script has at most 75 bytes (at most one key, or two compressed); refuted for all longer ones, including the README's 2-of-3 (TypeError)",
"C42": "AddressInput exact; MultisigInput: exact condition proved; refuted: duplicate keys are accepted, test-network keys are refused",
"C43": "AddressOutput, ScriptOutput and DataOutput up to 75 bytes proved; refuted: script addresses get a pubkey-hash script, MultisigOutput is the bare redeem script, empty and bytearray data are refused, 76 to 80 bytes cannot be serialised",
"C44": "get_id is the hash without reversal, so the outpoint carries the reversed hash (partial: exact bytes); refuted: it is the required outpoint only for palindromic hashes",
"C45": "termination proved for every state; True/False proved for well-formed scripts without PUSHDATA and without the P2SH flag, and these are the only sources of exceptions; refuted: PUSHDATA raises TypeError, the P2SH flag AttributeError",
"C46": "limits proved for every accepted pair, and rejection with the right error beyond each",
"C47": "disabled opcodes anywhere, OP_VERIF and OP_VERNOTIF anywhere, the other forbidden opcodes when executed",
"C48": "balance as a grammar; a branch not taken leaves the stacks alone; IF a ELSE b ENDIF has the effect of the branch taken",
"C49": "every stack opcode proved but OP_DROP, which drops two elements (refuted)",
"C50": "all arithmetic proved on operands that decode; refuted: OP_ABS gives 1, str operands raise, four-byte operands are refused",
"C51": "exact characterisation; refuted: anything that starts with a zero byte is False, so multiples of 256 are",
"C52": "refuted: no script_sig spends any PayToPubkeyOut or PayToScriptOut (OP_HASH160 raises), and with the P2SH flag nothing is accepted; the other hash opcodes are proved",
"C53": "proved: OP_CHECKSIG(VERIFY) never succeeds, and OP_CHECKMULTISIG(VERIFY) only with no signatures asked for",
"C54": "result and final attributes are independent of the state before; the script is unchanged",
"C55": "validate_signature accepts exactly the strict DER encodings (grammar in Spec/Der.lean) followed by one byte; the accepted reading is unique",
"C56": "every 78-byte payload with the right version parses to its fields, and whatever parses is of that form; trailing bytes after the payload are ignored",
"C57": "refuted: on both networks to_string raises UnicodeDecodeError for every key (the version bytes are added to a unicode literal); partial: a private key serialises correctly on any network object for which it returns",
"C58": "refuted: private derivation never returns (no attribute seed), the child key does not depend on the child number asked for, hardened numbers are accepted; partial: a public key derives the BIP32 child for its own index; hardened derivation from a public key is refused",
"C59": "satoshis kept for every |n| < 2^1024 - 2^970, OverflowError beyond (refuted there); the trip through btc keeps the amount or loses one satoshi, and is exact for multiples of 1/256 bitcoin; refuted for 3 satoshis and 0.29 bitcoin",
"C60": "round trip proved for ASCII, non-empty texts; the amount that comes back is exactly the one rounded to 12 significant digits, less at most one satoshi lost as in C59; is_valid raises exactly for amounts that overflow, and True implies an address in the text; refuted: amount=inf raises OverflowError, the scheme is not looked at, amounts over 12 digits change, empty extras vanish, non-ASCII texts raise, a dictionary without a text as address raises AttributeError, a huge amount in it OverflowError, an all-digit address without query does not come back",
"C67": "proved from 10000 satoshis up (exact for at most 12 digits, within 1e-11 otherwise); refuted below 10000 satoshis, where the text has an exponent",
"C68": "from_name and name are exact against a table written from the protocol",
"C69": "external library modelled function by function; proved for every key, digest and nonce in range",
"C70": "external library modelled function by function; the accepted texts are characterised exactly (C70_accepts) and the exceptions as well (C70_rejects); refuted: never returns False (raises), and accepts texts that are not DER for every key, hashing with SHA-1",
"C71": "exact without OP_RESERVED, which is accepted although it pushes nothing (refuted there, as in the reference client); the flag refuses as stated",
"C72": "exact without data, above 75 bytes, and for single bytes that an opcode pushes (given as str); refuted: AttributeError for all other data of 1 to 75 bytes, and an empty PUSHDATA is called minimal",
"C73": "refuted for every script and byte string: both always raise; the exception is determined",
"C74": "end to end, from the transaction to ECDSA validity (Mathlib's group law), with PrivateKey.sign as the signer and any nonces in range; signing an AddressInput fails only if the nonce makes r or s zero",
"C75": "Output.create exact; Input.create exact on the two templates it knows; refuted: NameError for every other script that can be classified (OpReturnOut is not imported)",
"C76": "writer and round trip proved; exact behaviour of reader and is_valid_wif proved; refuted: any suffix counts as compressed, secrets out of range are valid, ValueError for payloads under 33 bytes",
"C77": "exact for addresses of public keys, and exactly when it raises; refuted: addresses of scripts are not valid on the main network and raise UnicodeDecodeError on the test network",
"C78": "exact, against a separate transcription of RFC 6979 section 3.2, for every digest whose leading bits are not the order; refuted for that digest (`val > n` instead of `>=`)",
"C79": "exact for unsigned values and str; refuted: with signed, from_bytes always raises, and a non-empty bytearray is a TypeError",
"C80": "against a separate transcription of EvalScript: accepted implies accepted for scripts without OP_IF, OP_NOTIF, OP_IFDUP, OP_DROP, OP_ABS and within the limit on the stack, each of which is necessary; equivalence for runs without numbers, truth values or signatures the code mishandles; refuted in both directions otherwise",
"C81": "order, equality and agreement of hash with equality are proved; refuted: != compares identities in Python 2.7 (no __ne__), parsed scripts with data cannot be hashed, and no network, address or key can be hashed since seeds is a list",
"C82": "exact texts and injectivity are proved; refuted: opcodes without a name (and scripts with them) raise KeyError, repr of a private key contains the secret and not the compression flag",
"C83": "acceptance by a transcription of SignatureHash, CheckSig, EvalScript and VerifyScript; the only exception is a signature equal to the hash of the key (FindAndDelete)",
"C84": "acceptance is characterised exactly (C84_iff) and proved when keys are given in the order of the public keys; refuted for another order, of which can_sign is true as well. Redeem scripts above 75 bytes cannot be serialised at all (C41)",
"C85": "proved for types that mean SIGHASH_ALL; refuted for NONE, SINGLE and every ANYONECANPAY type: the digest is still that of all inputs and outputs, so the reference client refuses the signature",
"C86": "exact characterisation of the text (an entry without ASCII text makes to_uri raise)",
"C87": "every non-negative lock time is reported as not reached (C87_locktime), since check_lock_time returns None",
"C88": "holds for bytes given to keys and addresses; texts that are not ASCII raise UnicodeEncodeError or UnicodeDecodeError; extended keys raise the EncodingError of the utilities; scripts that trip the classifier raise AttributeError; counts of at least 2^63 raise OverflowError (C117 and C118 say for which inputs exactly)",
"C89": "",
"C90": "holds for all modelled functions, except that NotAnOutput speaks of Inputs, that str(e) fails if the name of an unknown network is not ASCII, that InvalidCompressionByte shows the WIF with its secret, and that opcodes without a name cannot be mentioned; the text of a pair of coordinates and of foreign objects is a parameter",
"C91": "== is an equivalence and right for reduced coordinates; sums and doubles are reduced, and multiples if the declared order is the true one and odd, hence always on secp256k1; refuted: the declared order is not checked, (x + p, y) is accepted, differs from (x, y) and cannot be added to it, 35*P != 8*P for a point of order 9, points of two curve objects with the same parameters, != and hash look at addresses",
"C92": "end to end, by an invariant of the loop that signs the inputs; composes C20, C32-C37, C74 and C83; the exception is a signature that equals the hash of the key",
"C93": "false of the code for shapes that make the classifier raise and for the empty byte string; otherwise exact, with the exception raised",
"C94": "false of the code: what MultisigOutput pays cannot be spent with MultisigInput; for ScriptOutput it holds for one key or two compressed keys in order (C41 and C84 refute the rest)",
"C95": "compositional: holds of every reader built with bind from reads",
"C96": "the leading digits of base-58 numerals follow from bounds on the number",
"C97": "a simulation between the runs under two sets of flags, by induction over the loop",
"C98": "false: (r, n - s) is valid whenever (r, s) is, for verify, for PrivateKey.verify, for sign with the opposite nonce, and in transactions that are accepted by the reference client without LOW_S. Proved: there is no other with r of at least p - n, at most four in any case, one small s; PrivateKey.sign gives the same text with the opposite nonce; under the rules that nodes apply to what they relay (LOW_S, SIGPUSHONLY, MINIMALDATA, CLEANSTACK) the input has one form for each signature, and one with the same r and type is the same or collides",
"C99": "false: sign drops what exceeds 256 bits of the value when it makes the nonce, so z and z + 2^256 share one (z above the order) and the key follows by the formula of C99_reveals. Proved for digests of 32 bytes",
"C100": "false for OP_DROP, which takes two elements when there are two; proved for scripts without it, by a simulation over all opcodes",
"C101": "the loop over program counters is shown to be a fold over the list of instructions; the simulation of C100 with nothing below gives that the place of an instruction does not matter",
"C102": "an invariant of every opcode; the reference client looks at the limit of 1000 after every instruction, this code when a script has ended, so that 1603 is the bound, and C102_tight reaches it",
"C103": "the lengths of the parts are measured on the model's serialisation; the bound of 72 comes from the normal form of s that sign makes and the minimality of DER",
"C104": "indices counted from 0; C40_negative_refuted shows that a negative index returns a transaction in which nothing is signed",
"C105": "the identifier of an output is the reversed hash, which get_id does not give (C44); acceptance supposes that the signature is not the 20 bytes of the hash of the key, as in C83",
"C106": "against the reference client of Verif/Spec/Consensus.lean; that signatures are hard to make without the key is not a theorem about the code",
"C107": "false as stated: a signature of z by d is also one of -z-2rd (modulo n), so one more alternative is needed: the second digest hits this value, or z itself modulo n, or r is below p-n. Missing for the full claim: nothing else; these coincidences are named with the two texts",
"C108": "the relation Refused lists the reasons; some are exceptions of Python (UnicodeEncodeError, ValueError), see C88",
"C109": "the relations ReadsAs and NoUri are complete and exclude each other; the grammar is that of Python 2.7's urlparse, not that of BIP 21 (see C60)",
"C110": "proved for requests with ASCII parameters without plus signs and semicolons, up to one satoshi; the code misreads the others and accepts unknown required parameters and negative amounts",
"C111": "the key returned is the one at the path shifted by one place: the index of k takes the first place and the last number asked for is only a label (proved for all paths, both ways); refuted: the path asked for, and children that BIP 32 declares invalid are returned",
"C112": "exact for every transaction that can be serialised and for the payments; refuted: a coin given twice and amounts above the limit are signed all the same; enough conditions on the coins and payments in C112_payment",
"C113": "exact for all output constructors, for the payments and for signed ScriptInputs and MultisigInputs (at most 1650 bytes); refuted: MultisigOutput with four or more keys or with more keys asked for than there are, amounts below dust, scripts and signatures of more than 1650 bytes",
"C114": "exact for every transaction; refuted: by default all sequence numbers are final, so that the lock time has no effect",
"C115": "proved for addresses of keys, up to the last satoshi and 12 digits, down to the chain of payments of C105; refuted: a request for the address of a script is paid to a key hash, a request for a negative amount is accepted and pays nothing",
"C116": "the order, the signs, the worth and the errors are proved in full; the number of satoshis up to a relative error of 2^-51 and there and back up to one satoshi, for up to 21 million bitcoins; refuted: three satoshis at rate 1 come back as two, and at a rate near the smallest float everything is lost",
"C117": "proved in both directions; at most one reason applies to a string and one applies exactly when the string does not begin with a readable transaction (C117_decided)",
"C118": "proved as equality of each reader with a relation given by cases (C118_*); the relations show what is not checked: bytes after a public key or an extended key, the byte before the secret in an extended private key, and coordinates not below p",
"C119": "proved as equality of each writer with a relation given by cases (C119_*), without any hypothesis on the objects; the relations show what is not checked: the width of identifiers, numbers out of range, and the length of data in direct pushes",
"C120": "proved as equality of sign with a relation given by cases (C120_input, C120_transaction); the only hypothesis is that the keys were made by PrivateKey",
"C121": "proved as equality of each create and can_sign with a relation given by cases; for can_sign the only hypothesis is that the keys were made by PrivateKey",
"C122": "proved as equality of each function with a relation given by cases (C122_new, C122_public, C122_private); that the child is not the one of BIP 32 is C58",
"C123": "proved as equality of step, evaluate and verify with relations given by cases (C123_step, C123_evaluate, C123_verify, C123_raises), which do not mention the functions; with C87, the failures, C123_either says the cases exclude each other and are all",
"C124": "proved as equality of each function with a relation given by cases; the relations use the wire format, the table of names and canonical decimal digits (decimal_iff: a number is written in one way)",
"C125": "proved as equality of each function with a relation given by cases; the secret is taken modulo the order of the group, so that secrets out of range, which only a key made without its constructor has, are covered",
"C126": "proved as equality of each function with a relation given by cases; rounding is stated as the nearest binary64 number, ties to even, which is unique (rounded64_unique); the sign of zero is not modelled",
"C127": "proved as equality of each function with a relation given by cases, for arguments of the types modelled (the text functions take unicode)",
"C128": "proved as equality of each function with a relation given by cases over Mathlib's group of the curve, for all integers, whatever representative of an abscissa modulo p is given",
"C129": "proved as equality of each function with a relation given by cases, without any hypothesis on the instructions",
"C130": "proved as equality of each function with a relation given by cases; the exceptions that are not documented are NameError of Input.create (C75), AttributeError of the classifier (C32) and OverflowError from 2**63 counted elements",
"C131": "proved of a model with integer moduli, which agrees with that of C21 and C22 for positive ones; composite moduli that are 1 modulo 4 can give a number that is not a root (16 modulo 85), which the documentation excludes",
"C132": "the exact failures behind the refutation of C23; for coordinates 0 <= x < p, as C23",
"C133": "exact texts, equality and hashes; the text that to_uri returns is that of C86, those of keys, addresses and units are in C82",
"C134": "false for one pair: the bytes of a transaction whose version is 2, 3 or 4 modulo 256 can be accepted as a public key too, since what follows the coordinates is not looked at; every other pair is proved disjoint",
"C135": "false of URIs: 59 satoshis become 58, then 57. Proved for URIs: an amount from 0 to 10000 bitcoins loses at most a satoshi a round and settles, everything else is the same at once. Proved in full for all others (extended keys are never written, see C57)",
"C136": "complements C132, which has abscissas in [0, p)",
"C137": "whether a number is int or long is a parameter, since it depends on how it was computed",
"C138": "exact for all three classes of inputs and for the counts of all outputs; refuted: more than two hundred outputs of MultisigOutput are not relayed; a MultisigInput signed with more or fewer keys than it asks for is not either (C138_multisig)",
"C139": "every output of a relayed transaction is readable, and so are inputs that spend payments to keys, or push nothing first and then data; refuted: an input that pushes four times to spend the hash of a script raises AttributeError, though the reference client accepts it",
"C140": "refuted: from_bytes makes plain inputs, which can never be signed; proved, for any number of signers, if each is told the classes of the inputs and makes them again with the fields that were read, and the transaction can be written and read at the start and at the end (always, for owners of addresses); AddressInput.can_sign then tells the next signer the same, while MultisigInput.can_sign raises where it said yes, since the keys that were read are of type bytearray",
"C141": "proved for all sequences of steps that keep or write the network; refuted: bytes and hexadecimal digits of keys are read as keys of the main network, extended keys made with a key of the test network belong to the main network unless told otherwise, outputs, inputs and signatures are the same for both networks, and MultisigInput.can_sign never says yes to a key of the test network",
"C142": "proved for payments to keys; for payments to scripts none is missed, but refuted: an output that pushes the hash by OP_PUSHDATA1 is found although it is no payment to the script and is open to everyone who knows the script, without signatures; and a payment to a key that pushes the hash by OP_PUSHDATA1 is found, but AddressInput signs another script than the one paid to, and nodes that require minimal pushes accept no input for it; with the opcode 20 the signed input is accepted by the reference client",
"C143": "proved: the secret exists, is the only one, is given by CKDpriv of BIP 32 along the shifted path of C111, and spends what was paid (exception of C83); refuted: HDPrivateKey.derive never gives it, and all addresses under one parent are the same",
"C144": "proved: all such inputs are read, with their class and signature, and the data of the second instruction are the key, read as str; refuted: get_public_key raises InvalidBinary for every such input, and for scripts that were made gives keys of the main network only",
"C145": "proved: the form of all such inputs (NodeRules of C98, with P2SH and NULLDUMMY), that they are read, their class, signatures and script; refuted: get_public_keys raises InvalidBinary for every multisig script that was read; and an input that spends a MultisigOutput with two signatures or more is taken for a PayToScriptIn, whose get_script reads the last signature as a script",
"C146": "proved: what is found, that it is one thing, is read back for 1 to 75 bytes and cannot be spent; refuted: OP_RETURN alone or with OP_0 to OP_16 is data for the reference client and is not found, and data of more than 80 bytes are found, which DataOutput refuses to make and the reference client does not take for data"
}
