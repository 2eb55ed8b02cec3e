{"id": "C01", "title": "Fixed-width integers round-trip", "statement": "encode_int(n, length=L) always has exactly L bytes, decode_int of it (same endianness) gives back n whenever 0 <= n < 256**L, and re-encoding any L-byte string's decoded value gives that byte string back. The default (no length) encoding also round-trips for every n >= 0.", "quantifier": "every natural n, every length L, every byte string, both endiannesses", "why_tests_cant": "unbounded integers and lengths; a test samples a few", "anchors": ["bitforge/encoding.py:encode_int", "bitforge/encoding.py:decode_int"]}
{"id": "C02", "title": "Out-of-range integers are silently reduced, never rejected", "statement": "encode_int(n, length=L) for n >= 256**L returns the encoding of n mod 256**L, and for negative n returns L zero bytes; no exception is raised, so serialising an amount/index/sequence outside its field width loses information without notice.", "quantifier": "every integer n (negative or too large), every L", "why_tests_cant": "needs all integers outside the field width", "anchors": ["bitforge/encoding.py:encode_int"]}
{"id": "C03", "title": "Variable-length integers round-trip inside a stream", "statement": "For every n < 2**64 and any bytes following it, writing encode_varint(n) and reading it with Buffer.read_varint returns n and leaves exactly the following bytes. The encoding is 1, 3, 5 or 9 bytes, chosen by the size of n, and is a prefix code (no encoding is a proper prefix of another).", "quantifier": "every n < 2**64, every continuation of the stream", "why_tests_cant": "2**64 values times all continuations", "anchors": ["bitforge/encoding.py:encode_varint", "bitforge/tools.py:Buffer.read_varint"]}
{"id": "C04", "title": "Buffer reads partition the stream", "statement": "For every sequence of read() requests on a Buffer, the concatenation of what was returned plus what remains is the original contents; a read asks for n bytes gets exactly n or raises InsufficientData(len, n) and consumes nothing; write appends at the end.", "quantifier": "every buffer content and every sequence of reads and writes", "why_tests_cant": "all operation histories", "anchors": ["bitforge/tools.py:Buffer"]}
{"id": "C05", "title": "Hexadecimal text round-trips", "statement": "decode_hex(encode_hex(b)) == b for every byte string; decode_hex succeeds exactly on even-length strings of hex digits (either case), otherwise raises InvalidHex for ASCII text; encode_hex(decode_hex(s)) is s lower-cased.", "quantifier": "every byte string and every text", "why_tests_cant": "infinite domain", "anchors": ["bitforge/encoding.py:encode_hex", "bitforge/encoding.py:decode_hex"]}
{"id": "C06", "title": "Base58 is a bijection between byte strings and base58 texts", "statement": "Encoding then decoding any byte string (including leading zero bytes) gives it back; decoding then encoding any text over the 58-character alphabet gives the text back; any ASCII text containing another character is rejected.", "quantifier": "every byte string, every text", "why_tests_cant": "bignum arithmetic on arbitrarily long inputs, leading-zero handling", "anchors": ["bitforge/utils/encoding.py:b2a_base58", "bitforge/utils/encoding.py:a2b_base58", "bitforge/utils/encoding.py:to_long", "bitforge/utils/encoding.py:from_long"]}
{"id": "C07", "title": "Base58Check accepts exactly its own encodings", "statement": "decode_base58h(encode_base58h(d)) == d for every byte string d, and decode_base58h(s) succeeds with d only if s == encode_base58h(d): there is exactly one accepted spelling of each payload and every accepted string carries the right 4-byte double-SHA256 checksum.", "quantifier": "every byte string and every text; for every hash function", "why_tests_cant": "all strings, including corrupted ones", "anchors": ["bitforge/encoding.py:encode_base58h", "bitforge/encoding.py:decode_base58h", "bitforge/utils/encoding.py:b2a_hashed_base58", "bitforge/utils/encoding.py:a2b_hashed_base58", "bitforge/utils/encoding.py:is_hashed_base58_valid"]}
{"id": "C08", "title": "Script numbers encode minimally and round-trip", "statement": "encode_script_number(n) is the shortest little-endian sign-magnitude encoding of n; decoding it (with or without the minimality requirement, with a large enough size argument) returns n. With the default 4-byte limit every n with |n| <= 2**31-1 should round-trip (bitcoind's contract).", "quantifier": "every integer n", "why_tests_cant": "unbounded integers; sign-bit boundary at each byte length", "anchors": ["bitforge/encoding.py:encode_script_number", "bitforge/encoding.py:decode_script_number"]}
{"id": "C09", "title": "Minimal script-number decoding accepts exactly the canonical encoding", "statement": "With f_require_minimal, decode_script_number(b) returns n if and only if b is encode_script_number(n) and is under the length limit; without it, every byte string under the limit decodes, and re-encoding never gets longer.", "quantifier": "every byte string", "why_tests_cant": "all byte strings", "anchors": ["bitforge/encoding.py:decode_script_number"]}
{"id": "C10", "title": "Network lookup is unambiguous", "statement": "networks.find applied to any of a known network's own name or version attributes returns that network (the two networks never share a value of a versioning attribute); a value no network has raises UnknownNetwork, or returns None with raises=False.", "quantifier": "every attribute and every value", "why_tests_cant": "all values", "anchors": ["bitforge/networks.py:find"]}
{"id": "C11", "title": "Private key secrets are always in range", "statement": "A PrivateKey, however obtained (constructor, from_bytes, from_hex, from_wif), always has 0 < secret < group order; every other secret raises InvalidSecret.", "quantifier": "every integer, every byte string, every text", "why_tests_cant": "all construction paths and all inputs", "anchors": ["bitforge/privkey.py:PrivateKey.__new__", "bitforge/privkey.py:PrivateKey.from_wif", "bitforge/privkey.py:PrivateKey.from_bytes"]}
{"id": "C12", "title": "WIF round-trips", "statement": "PrivateKey.from_wif(k.to_wif()) == k for every private key: same secret, network and compression flag.", "quantifier": "every secret in range, both networks, both compression flags", "why_tests_cant": "2**256 keys", "anchors": ["bitforge/privkey.py:PrivateKey.to_wif", "bitforge/privkey.py:PrivateKey.from_wif"]}
{"id": "C13", "title": "WIF parsing accepts only canonical WIFs", "statement": "If from_wif(s) returns k then k.to_wif() == s: no second spelling of a key is accepted, and a string of the wrong length, compression byte or network prefix is rejected with the documented exception.", "quantifier": "every text", "why_tests_cant": "all strings", "anchors": ["bitforge/privkey.py:PrivateKey.from_wif"]}
{"id": "C14", "title": "Private key bytes and hex round-trip", "statement": "from_bytes(k.to_bytes()) and from_hex(k.to_hex()) give back k (for the given network and flag); to_bytes is always 32 bytes; from_bytes rejects every other length.", "quantifier": "every private key, every byte string", "why_tests_cant": "2**256 keys; small secrets with leading zeros are rarely sampled", "anchors": ["bitforge/privkey.py:PrivateKey.to_bytes", "bitforge/privkey.py:PrivateKey.from_bytes", "bitforge/privkey.py:PrivateKey.from_hex"]}
{"id": "C15", "title": "Addresses round-trip through string, bytes and hex", "statement": "Address.from_string(a.to_string()) == a, and the same for to_bytes/from_bytes and to_hex/from_hex, for every address: hash, network and type are all recovered.", "quantifier": "every 20-byte hash, both networks, both types", "why_tests_cant": "2**160 hashes", "anchors": ["bitforge/address.py:Address"]}
{"id": "C16", "title": "Address parsing is canonical and classifies exactly", "statement": "from_bytes accepts exactly the 21-byte strings whose first byte is one of the four known versions, classifies them as (network, type) by that byte, and re-serialises to the same bytes; from_string(s)=a implies a.to_string()==s.", "quantifier": "every byte string and every text", "why_tests_cant": "all strings", "anchors": ["bitforge/address.py:Address.from_bytes", "bitforge/address.py:Address.classify_bytes"]}
{"id": "C17", "title": "A PublicKey is always a point of the curve", "statement": "Every PublicKey that any constructor returns satisfies the secp256k1 curve equation modulo p; a pair that does not is rejected.", "quantifier": "every pair of integers, every byte string", "why_tests_cant": "all inputs", "anchors": ["bitforge/pubkey.py:PublicKey.__new__", "bitforge/utils/ecdsa.py:is_public_pair_valid"]}
{"id": "C18", "title": "Public keys round-trip through SEC bytes and hex", "statement": "PublicKey.from_bytes(k.to_bytes(), k.network) == k for every public key with coordinates in [0,p), both compressed (where y is recomputed by a modular square root) and uncompressed.", "quantifier": "every curve point with reduced coordinates, both forms", "why_tests_cant": "2**256 points; needs number theory", "anchors": ["bitforge/pubkey.py:PublicKey", "bitforge/utils/encoding.py:public_pair_to_sec", "bitforge/utils/encoding.py:sec_to_public_pair", "bitforge/utils/ecdsa.py:public_pair_for_x"]}
{"id": "C19", "title": "Public key parsing is canonical", "statement": "A byte string accepted by PublicKey.from_bytes is the serialisation of the key it returns, so one point has one accepted compressed and one accepted uncompressed spelling.", "quantifier": "every byte string", "why_tests_cant": "all byte strings", "anchors": ["bitforge/pubkey.py:PublicKey.from_bytes", "bitforge/utils/encoding.py:sec_to_public_pair"]}
{"id": "C20", "title": "Every private key has a public key, and it is secret*G", "statement": "PrivateKey.to_public_key never raises for a valid private key and returns the affine coordinates of secret*G in the secp256k1 group; distinct secrets give distinct points.", "quantifier": "every secret in range", "why_tests_cant": "2**256 secrets", "anchors": ["bitforge/pubkey.py:PublicKey.from_private_key", "bitforge/utils/ecdsa.py:public_pair_for_secret_exponent", "bitforge/utils/ellipticcurve.py:Point.__mul__"]}
{"id": "C21", "title": "Modular inverse is correct and fails loudly", "statement": "inverse_mod(a, m) returns x in [1,m] with a*x = 1 (mod m) whenever gcd(a,m)=1 (m >= 1), and raises AssertionError otherwise; it always terminates.", "quantifier": "every integer a, every m >= 1", "why_tests_cant": "unbounded integers", "anchors": ["bitforge/utils/numbertheory.py:inverse_mod"]}
{"id": "C22", "title": "Modular square root is correct", "statement": "For every odd prime p and every a, modular_sqrt(a, p) terminates and returns x with x*x = a (mod p) if a is a non-zero square, and 0 otherwise.", "quantifier": "every odd prime p, every integer a", "why_tests_cant": "all primes", "anchors": ["bitforge/utils/numbertheory.py:modular_sqrt", "bitforge/utils/numbertheory.py:legendre_symbol"]}
{"id": "C23", "title": "Point addition, doubling and multiplication implement the curve group", "statement": "On any non-singular curve over a prime field, +, double() and * never raise on points of the curve and compute the group operation, the group doubling and the integer multiple (reduced by the declared order when one is given).", "quantifier": "every prime p > 3, every non-singular curve, every pair of points, every non-negative multiplier", "why_tests_cant": "infinite family of curves/points", "anchors": ["bitforge/utils/ellipticcurve.py:Point"]}
{"id": "C24", "title": "ECDSA verification accepts what signing produced", "statement": "utils.verify(G, pub(d), z, utils.sign(G, d, z)) is True for every secret d in range and every digest value z, for every nonce the generator may return.", "quantifier": "every secret, digest and nonce", "why_tests_cant": "2**768 combinations", "anchors": ["bitforge/utils/ecdsa.py:sign", "bitforge/utils/ecdsa.py:verify"]}
{"id": "C25", "title": "ECDSA verification is exactly the verification equation", "statement": "utils.verify returns True iff 1 <= r,s <= n-1 and the x-coordinate of (z/s)G + (r/s)Q is r modulo n; it rejects out-of-range r or s without touching the curve.", "quantifier": "every r, s, z and public point", "why_tests_cant": "all inputs", "anchors": ["bitforge/utils/ecdsa.py:verify"]}
{"id": "C26", "title": "Opcode selection for pushes", "statement": "Opcode.push_for(n) is the one opcode with the shortest serialised prefix able to push n bytes: direct for 1..75, PUSHDATA1 for 76..255, PUSHDATA2 up to 65535, PUSHDATA4 up to 2**32-1; 0 and larger lengths are rejected.", "quantifier": "every length n", "why_tests_cant": "all naturals", "anchors": ["bitforge/script/opcode.py:Opcode.push_for"]}
{"id": "C27", "title": "Instructions are well-formed by construction", "statement": "Every Instruction that the constructor returns has data exactly when its opcode pushes data, of exactly the opcode's length for direct pushes and at most the opcode's maximum for PUSHDATA; everything else raises.", "quantifier": "every opcode number, every data", "why_tests_cant": "all combinations", "anchors": ["bitforge/script/instruction.py:Instruction.__new__"]}
{"id": "C28", "title": "Script binary form round-trips: build, serialise, parse", "statement": "Script.from_bytes(s.to_bytes()) == s for every script of well-formed instructions.", "quantifier": "every sequence of well-formed instructions", "why_tests_cant": "all scripts", "anchors": ["bitforge/script/script.py:Script.to_bytes", "bitforge/script/script.py:Script.from_buffer", "bitforge/script/instruction.py:Instruction.to_bytes"]}
{"id": "C29", "title": "Script binary form round-trips: parse, serialise", "statement": "Whenever Script.from_bytes(b) returns a script, its to_bytes() is b.", "quantifier": "every byte string", "why_tests_cant": "all byte strings", "anchors": ["bitforge/script/script.py:Script.from_bytes", "bitforge/script/instruction.py:Instruction.to_bytes"]}
{"id": "C30", "title": "Script parsing is total up to truncation", "statement": "Script.from_bytes(b) succeeds for every b that is a sequence of complete instructions and raises InsufficientData for every other b.", "quantifier": "every byte string", "why_tests_cant": "all byte strings", "anchors": ["bitforge/script/script.py:Script.from_buffer", "bitforge/script/script.py:Script.classify", "bitforge/script/script.py:RedeemMultisig.is_valid"]}
{"id": "C31", "title": "Script text form round-trips", "statement": "Script.from_string(s.to_string()) == s for every non-empty script whose opcodes all have names; a script containing a nameless opcode cannot be printed.", "quantifier": "every script", "why_tests_cant": "all scripts", "anchors": ["bitforge/script/script.py:Script.from_string", "bitforge/script/instruction.py:Instruction.to_string", "bitforge/script/opcode.py:Opcode.from_name"]}
{"id": "C32", "title": "Script templates: classification is exclusive and exact", "statement": "No script matches two templates; a script produced by a template's create() is classified as that template, and the getters return what was put in (signature, key hash, redeem script bytes, signatures, data, min_signatures).", "quantifier": "every argument of every create()", "why_tests_cant": "all arguments", "anchors": ["bitforge/script/script.py:Script.classify", "bitforge/script/script.py:SCRIPT_SUBCLASSES"]}
{"id": "C33", "title": "Transaction construction validates its arguments", "statement": "A Transaction object always has at least one input, at least one output and 0 <= lock_time <= 2**32-1; each violation raises the documented exception.", "quantifier": "every list of inputs/outputs and every integer lock_time", "why_tests_cant": "all arguments", "anchors": ["bitforge/transaction/transaction.py:Transaction.__new__"]}
{"id": "C34", "title": "Transaction serialisation round-trips", "statement": "Transaction.from_bytes(t.to_bytes()) == t for every transaction whose tx ids are 64 lower-case hex digits and whose numeric fields fit their width, and likewise for Input and Output inside a longer buffer.", "quantifier": "every transaction", "why_tests_cant": "unbounded numbers of inputs/outputs and script sizes", "anchors": ["bitforge/transaction/transaction.py:Transaction.to_bytes", "bitforge/transaction/transaction.py:Transaction.from_bytes", "bitforge/transaction/input.py:Input", "bitforge/transaction/output.py:Output"]}
{"id": "C35", "title": "Serialisation is injective", "statement": "Two transactions with in-range fields that serialise to the same bytes are equal, so the bytes that get hashed and signed determine the transaction.", "quantifier": "every pair of transactions", "why_tests_cant": "all pairs", "anchors": ["bitforge/transaction/transaction.py:Transaction.to_bytes"]}
{"id": "C36", "title": "Transaction parsing consumes the whole string", "statement": "If Transaction.from_bytes(b) returns t then t.to_bytes() == b: trailing bytes and non-canonical length prefixes are rejected.", "quantifier": "every byte string", "why_tests_cant": "all byte strings", "anchors": ["bitforge/transaction/transaction.py:Transaction.from_bytes", "bitforge/tools.py:Buffer.read_varint"]}
{"id": "C37", "title": "Signing changes only the signed input's script", "statement": "t.sign(keys, i) returns a transaction with the same version, lock time, outputs and number of inputs; every input other than i is unchanged, and input i keeps its outpoint and sequence number.", "quantifier": "every transaction, key list, index and signature type", "why_tests_cant": "all transactions", "anchors": ["bitforge/transaction/transaction.py:Transaction.sign", "bitforge/transaction/input.py:Input.replace_script"]}
{"id": "C38", "title": "Signing order does not matter", "statement": "Signing input i and then j gives the same transaction as signing j and then i, for distinct indices, whatever signatures the (randomised) signer produces.", "quantifier": "every transaction, every two indices, every signer behaviour", "why_tests_cant": "all schedules of signing", "anchors": ["bitforge/transaction/transaction.py:Transaction.sign"]}
{"id": "C39", "title": "The signed payload is Bitcoin's SIGHASH_ALL digest and commits to everything but other scripts", "statement": "The digest given to the signer is the double SHA-256 of the serialisation of the transaction with all other input scripts emptied, followed by the signature type as 4 little-endian bytes; it does not depend on the other inputs' scripts, and two in-range transactions with equal pre-images agree on everything else.", "quantifier": "every transaction and index", "why_tests_cant": "all transactions", "anchors": ["bitforge/transaction/transaction.py:Transaction.sign"]}
{"id": "C40", "title": "Signing a bad index or an unsignable input fails", "statement": "t.sign raises for an index outside the transaction, for an input of the plain Input class (such as any input of a parsed transaction, or one already signed), and for an AddressInput with other than one key; it never returns an unsigned transaction as if signed.", "quantifier": "every transaction and integer index", "why_tests_cant": "all indices, including negative", "anchors": ["bitforge/transaction/transaction.py:Transaction.sign", "bitforge/transaction/input.py:Input.sign", "bitforge/transaction/input.py:AddressInput.sign"]}
{"id": "C41", "title": "Signed multisig transactions can be serialised", "statement": "After signing every input of a transaction of AddressInputs and MultisigInputs with the right keys, to_bytes() succeeds (README: 'create, sign and serialize a multisig Transaction').", "quantifier": "every number of keys", "why_tests_cant": "all key counts", "anchors": ["bitforge/transaction/input.py:ScriptInput.sign", "bitforge/script/instruction.py:Instruction.to_bytes"]}
{"id": "C42", "title": "can_sign tells whether sign can authorise the input", "statement": "AddressInput.can_sign(keys) is True iff exactly one key is given and its hash is the input's; MultisigInput.can_sign(keys) is True iff exactly min_signatures distinct keys are given and each belongs to the redeem script.", "quantifier": "every key list, every redeem script", "why_tests_cant": "all key lists", "anchors": ["bitforge/transaction/input.py:AddressInput.can_sign", "bitforge/transaction/input.py:MultisigInput.can_sign"]}
{"id": "C43", "title": "Output constructors build the documented scripts", "statement": "AddressOutput pays to the address's hash; ScriptOutput and MultisigOutput are pay-to-script-hash of the redeem script; DataOutput carries at most 80 bytes after OP_RETURN with amount 0.", "quantifier": "every amount, address, script, key list and data", "why_tests_cant": "all arguments", "anchors": ["bitforge/transaction/output.py:AddressOutput", "bitforge/transaction/output.py:ScriptOutput", "bitforge/transaction/output.py:MultisigOutput", "bitforge/transaction/output.py:DataOutput"]}
{"id": "C44", "title": "The transaction id can be used to spend the transaction's outputs", "statement": "An Input whose tx_id is t.get_id() serialises with the double SHA-256 of t as its outpoint hash, as the Bitcoin protocol requires.", "quantifier": "every transaction; every hash function", "why_tests_cant": "all transactions", "anchors": ["bitforge/transaction/transaction.py:Transaction.get_id", "bitforge/transaction/input.py:Input.to_bytes"]}
{"id": "C45", "title": "Script evaluation always terminates with a verdict", "statement": "Interpreter.verify terminates on every pair of scripts and flags, and its outcome is True or False; it never raises.", "quantifier": "every pair of scripts, every flag set", "why_tests_cant": "all programs", "anchors": ["bitforge/script/interpreter.py:Interpreter.verify", "bitforge/script/interpreter.py:Interpreter.evaluate"]}
{"id": "C46", "title": "Script verdicts respect the resource limits", "statement": "If verify returns True then neither script is longer than 10000 bytes, no executed push is longer than 520 bytes, at most 201 non-push operations ran in each script (multisig keys included), and each script ended with at most 1000 stack items.", "quantifier": "every pair of scripts", "why_tests_cant": "all programs", "anchors": ["bitforge/script/interpreter.py:Interpreter.evaluate", "bitforge/script/interpreter.py:Interpreter.step"]}
{"id": "C47", "title": "Disabled opcodes and OP_RETURN reject", "statement": "A script that contains a disabled opcode (anywhere up to the point evaluation reaches, even in an unexecuted branch) or that executes OP_RETURN, an undefined or a reserved opcode never evaluates to success.", "quantifier": "every script", "why_tests_cant": "all programs, all branch structures", "anchors": ["bitforge/script/interpreter.py:Interpreter.step"]}
{"id": "C48", "title": "Conditionals are balanced and only the taken branch runs", "statement": "If a script evaluates successfully its IF/NOTIF/ELSE/ENDIF are balanced; instructions inside a branch not taken leave the stacks untouched.", "quantifier": "every script, every nesting depth", "why_tests_cant": "unbounded nesting", "anchors": ["bitforge/script/interpreter.py:Interpreter.step"]}
{"id": "C49", "title": "Stack opcodes have their documented effect", "statement": "Each stack-manipulation opcode transforms the stack as in the Bitcoin script reference (e.g. OP_SWAP: x1 x2 -> x2 x1; OP_DROP: x ->), fails when the stack is too small, and touches nothing below its operands.", "quantifier": "every stack", "why_tests_cant": "all stacks", "anchors": ["bitforge/script/interpreter.py:Interpreter.step"]}
{"id": "C50", "title": "Arithmetic opcodes compute on script numbers", "statement": "Each arithmetic/comparison opcode replaces its operands with the encoding of the documented integer function of their values (OP_ABS: absolute value, OP_ADD: sum, ...), for operands in the accepted range.", "quantifier": "every operand", "why_tests_cant": "all numbers", "anchors": ["bitforge/script/interpreter.py:Interpreter.step"]}
{"id": "C51", "title": "Truth value of stack items", "statement": "cast_to_bool(b) is False exactly for the encodings of zero (empty, all zero bytes, or negative zero).", "quantifier": "every byte string", "why_tests_cant": "all byte strings", "anchors": ["bitforge/script/interpreter.py:Interpreter.cast_to_bool"]}
{"id": "C52", "title": "Spending a pay-to-pubkey-hash or pay-to-script-hash output verifies", "statement": "verify accepts a correctly signed PayToPubkeyIn against its PayToPubkeyOut, and with SCRIPT_VERIFY_P2SH a correct PayToScriptIn against its PayToScriptOut.", "quantifier": "every key, every transaction, every redeem script", "why_tests_cant": "all keys and transactions", "anchors": ["bitforge/script/interpreter.py:Interpreter.verify", "bitforge/encoding.py:hash160", "bitforge/script/script.py:Script.remove_opcode_by_data"]}
{"id": "C53", "title": "Signature checks are never bypassed", "statement": "A script in which an OP_CHECKSIG(VERIFY), or an OP_CHECKMULTISIG(VERIFY) requiring at least one signature, is executed never evaluates to success without a valid signature.", "quantifier": "every script, stack and flags", "why_tests_cant": "all programs", "anchors": ["bitforge/script/interpreter.py:Interpreter.step"]}
{"id": "C54", "title": "Interpreter reuse is safe", "statement": "verify's outcome depends only on its arguments, not on earlier use of the same Interpreter, and it leaves the scripts unchanged.", "quantifier": "every history of calls on one Interpreter", "why_tests_cant": "all histories", "anchors": ["bitforge/script/interpreter.py:Interpreter.initialize", "bitforge/script/interpreter.py:Interpreter.verify"]}
{"id": "C55", "title": "Strict DER signature validation", "statement": "validate_signature(sig) never raises and returns True exactly when sig is 0x30 len 0x02 lenR R 0x02 lenS S hashtype with total length 9..73 and R, S minimal non-negative big-endian integers (BIP66).", "quantifier": "every byte string", "why_tests_cant": "all byte strings", "anchors": ["bitforge/signature.py:validate_signature"]}
{"id": "C56", "title": "Extended keys parse from the BIP32 format", "statement": "HDPrivateKey.from_string / HDPublicKey.from_string of the BIP32 Base58Check serialisation return exactly the serialised fields (network, depth, parent fingerprint, index, chain code, key).", "quantifier": "every extended key", "why_tests_cant": "all keys", "anchors": ["bitforge/hdprivkey.py:HDPrivateKey.from_string", "bitforge/hdpubkey.py:HDPublicKey.from_string"]}
{"id": "C57", "title": "Extended keys serialise", "statement": "to_string of an extended key returns a string from which from_string recovers the key.", "quantifier": "every extended key", "why_tests_cant": "all keys", "anchors": ["bitforge/hdprivkey.py:HDPrivateKey.to_string", "bitforge/hdpubkey.py:HDPublicKey.to_string"]}
{"id": "C58", "title": "Extended key derivation gives distinct, consistent children", "statement": "derive(i) implements BIP32 child derivation: the child depends on the index i, private and public derivation agree, hardened derivation from a public key is refused.", "quantifier": "every parent key and index", "why_tests_cant": "all keys and indices", "anchors": ["bitforge/hdprivkey.py:HDPrivateKey.derive", "bitforge/hdpubkey.py:HDPublicKey.derive"]}
{"id": "C59", "title": "Amounts in satoshis are exact", "statement": "Unit(satoshis=n).satoshis == n for every integer n, and converting to btc and back (Unit(btc=u.btc)) preserves the number of satoshis for every amount up to 21 million BTC.", "quantifier": "every integer amount", "why_tests_cant": "2.1e15 amounts, IEEE double rounding at each", "anchors": ["bitforge/unit.py:Unit"]}
{"id": "C60", "title": "URIs round-trip and validate", "statement": "URI(u.to_uri()) has the same address, amount, label, message, r and extras as u; is_valid never raises and is True only for the bitcoin scheme with a valid address.", "quantifier": "every URI", "why_tests_cant": "all strings", "anchors": ["bitforge/uri.py:URI", "bitforge/uri.py:URI.is_valid"]}
{"id": "C61", "title": "Every public key belongs to exactly one private key", "statement": "The group of points accepted by PublicKey has exactly n elements (n = the generator's order, cofactor 1), so every accepted public key is secret*G for exactly one secret modulo n and needs no separate subgroup check.", "quantifier": "every curve point", "why_tests_cant": "2**256 points; discrete logarithms cannot be sampled", "anchors": ["bitforge/pubkey.py:PublicKey.__new__", "bitforge/utils/secp256k1.py"]}
{"id": "C62", "title": "Public key recovery returns only keys that verify", "statement": "possible_public_pairs_for_signature(G, z, (r, s)) returns only pairs that verify(...) accepts for that signature, and it includes the signer's key for every signature made by sign.", "quantifier": "every digest and signature", "why_tests_cant": "all signatures", "anchors": ["bitforge/utils/ecdsa.py:possible_public_pairs_for_signature"]}
{"id": "C63", "title": "PrivateKey.sign output is accepted by PrivateKey.verify", "statement": "k.verify(k.sign(m), m) is True for every key and every 32-byte message digest.", "quantifier": "every key and digest", "why_tests_cant": "all keys; depends on which digest each side hashes", "anchors": ["bitforge/privkey.py:PrivateKey.sign", "bitforge/privkey.py:PrivateKey.verify"]}
{"id": "C64", "title": "Neutering an extended private key", "statement": "HDPrivateKey.to_hd_public_key keeps network, depth, parent fingerprint, index, chain code and fingerprint, and its public key is secret*G.", "quantifier": "every extended private key", "why_tests_cant": "2**256 keys times all metadata", "anchors": ["bitforge/hdprivkey.py:HDPrivateKey.to_hd_public_key", "bitforge/hdpubkey.py:HDPublicKey.from_hd_private_key"]}
{"id": "C65", "title": "The master key of a seed is BIP32's", "statement": "HDPrivateKey.from_seed(seed) is the BIP32 master key (left half of HMAC-SHA512('Bitcoin seed', seed) as secret, right half as chain code, depth, index and parent 0); seeds below 32 bytes are rejected, and a left half of 0 or at least n is rejected.", "quantifier": "every seed and every HMAC function", "why_tests_cant": "all seeds; the rejected left halves have probability 2**-127", "anchors": ["bitforge/hdprivkey.py:HDPrivateKey.from_seed"]}
{"id": "C66", "title": "Unit attributes are the closest floats", "statement": "For |n| <= 2**53 the attributes bits, mbtc and btc of Unit(satoshis=n) are the binary64 numbers closest to n/10**2, n/10**5 and n/10**8; whole bitcoins and multiples of 1/256 bitcoin are exact; the first argument given counts and none is a ValueError.", "quantifier": "every amount up to 2**53 satoshis", "why_tests_cant": "2**54 amounts, each with its own rounding", "anchors": ["bitforge/unit.py:Unit.__init__", "bitforge/unit.py:Unit._set_values", "bitforge/unit.py:Unit.from_fiat", "bitforge/unit.py:Unit.at_rate"]}
{"id": "C67", "title": "Amounts in URIs are plain decimal numbers", "statement": "The amount in u.to_uri() is written as BIP 21 demands, as digits with at most one decimal point and no exponent, and the number written is the amount in bitcoins; reading takes the float closest to the number written.", "quantifier": "every amount from 1 satoshi to 21 million bitcoins", "why_tests_cant": "2.1 * 10**15 amounts, each with its own rounding", "anchors": ["bitforge/uri.py:URI.to_uri", "bitforge/uri.py:URI.__init__"]}
{"id": "C68", "title": "Opcode names and numbers are Bitcoin's", "statement": "Opcode.from_name knows exactly the names of Bitcoin's opcodes (OP_0, the counted pushes, everything from OP_1NEGATE to OP_NOP10 except the forbidden OP_VER, OP_VERIF and OP_VERNOTIF, the template opcodes, and the synonyms OP_FALSE and OP_TRUE) with their protocol numbers, and opcode.name gives the name of every opcode that has one and tells direct pushes apart by their length.", "quantifier": "every text and every opcode number", "why_tests_cant": "all texts that are not names; a swapped pair of rows in the table is self-consistent", "anchors": ["bitforge/script/opcode.py:Opcode.from_name", "bitforge/script/opcode.py:Opcode.name"]}
{"id": "C69", "title": "PrivateKey.sign makes canonical signatures", "statement": "k.sign(m) is the strict DER text of a valid ECDSA signature of the digest m by k, with s at most n/2, so that with a hash type byte it passes validate_signature; digests above 32 bytes are refused.", "quantifier": "every key, digest and nonce", "why_tests_cant": "2**256 keys and nonces; padding and lengths depend on the top bits of r and s", "anchors": ["bitforge/privkey.py:PrivateKey.sign", "bitforge/signature.py:validate_signature"]}
{"id": "C70", "title": "PrivateKey.verify decides signature validity", "statement": "k.verify(sig, m) is True exactly if sig is the DER text of a valid signature of m's hash, and False for every other text.", "quantifier": "every key, text and message", "why_tests_cant": "all byte strings, including malformed and non-canonical ones", "anchors": ["bitforge/privkey.py:PrivateKey.verify"]}
{"id": "C71", "title": "is_push_only recognises scripts that only push", "statement": "script.is_push_only() is True exactly if every instruction pushes something (data, or one of the numbers -1 to 16), and with SCRIPT_VERIFY_SIGPUSHONLY verify refuses any script_sig for which it is False.", "quantifier": "every script", "why_tests_cant": "all scripts; the boundary includes reserved opcodes", "anchors": ["bitforge/script/script.py:Script.is_push_only", "bitforge/script/interpreter.py:Interpreter.verify"]}
{"id": "C72", "title": "is_minimal_push recognises the smallest push", "statement": "instruction.is_minimal_push() returns True exactly if no other instruction pushes the same data in fewer bytes.", "quantifier": "every well-formed instruction", "why_tests_cant": "all data of all lengths, with boundaries at 0, 1, 75, 255 and 65535 bytes", "anchors": ["bitforge/script/instruction.py:Instruction.is_minimal_push"]}
{"id": "C73", "title": "push_data and remove_opcode_by_data edit a script", "statement": "script.push_data(b) appends a push of b, and script.remove_opcode_by_data(b) removes exactly the pushes of b.", "quantifier": "every script and byte string", "why_tests_cant": "all scripts and data", "anchors": ["bitforge/script/script.py:Script.push_data", "bitforge/script/script.py:Script.remove_opcode_by_data"]}
{"id": "C74", "title": "Signed transactions carry valid signatures", "statement": "After t.sign(keys, i, st), the script of input i holds, for each key in order, a strict DER signature with small s that is valid for the SIGHASH digest of t at input i, followed by the byte st; for an AddressInput it holds that signature and the public key of the private key.", "quantifier": "every transaction, input, list of keys, signature type and nonces", "why_tests_cant": "a test sees one key and one nonce; the claim spans serialisation, the curve, DER and script templates", "anchors": ["bitforge/transaction/transaction.py:Transaction.sign", "bitforge/transaction/input.py:AddressInput.sign", "bitforge/transaction/input.py:ScriptInput.sign", "bitforge/privkey.py:PrivateKey.sign"]}
{"id": "C75", "title": "Input.create and Output.create choose the class by the template", "statement": "Input.create and Output.create keep the fields and instructions given and return an instance of the class of the script's template, of the plain class if there is none.", "quantifier": "every script and field values", "why_tests_cant": "all scripts; scripts of no template take the last branch", "anchors": ["bitforge/transaction/input.py:Input.create", "bitforge/transaction/output.py:Output.create"]}
{"id": "C76", "title": "The WIF utilities read and write exactly WIF", "statement": "secret_exponent_to_wif writes the Wallet Import Format, wif_to_tuple_of_secret_exponent_compressed inverts it, and is_valid_wif(t) returns True exactly for the texts from which a private key with an allowed prefix can be made, False for all others.", "quantifier": "every text, secret and prefix", "why_tests_cant": "all texts with a valid checksum, of any length and with any suffix", "anchors": ["bitforge/utils/encoding.py:secret_exponent_to_wif", "bitforge/utils/encoding.py:wif_to_tuple_of_secret_exponent_compressed", "bitforge/utils/encoding.py:is_valid_wif"]}
{"id": "C77", "title": "The address utilities agree with Address", "statement": "public_pair_to_bitcoin_address gives the text of the address of the key, bitcoin_address_to_hash160_sec inverts hash160_sec_to_bitcoin_address, and is_valid_bitcoin_address(t) returns True exactly for addresses with an allowed prefix, False for all other texts.", "quantifier": "every text, hash, key and prefix", "why_tests_cant": "all texts; the exception depends on the first byte", "anchors": ["bitforge/utils/encoding.py:public_pair_to_bitcoin_address", "bitforge/utils/encoding.py:bitcoin_address_to_hash160_sec", "bitforge/utils/encoding.py:is_valid_bitcoin_address"]}
{"id": "C78", "title": "Deterministic nonces follow RFC 6979", "statement": "deterministic_generate_k(order, secret, digest) returns the nonce of RFC 6979 with HMAC-SHA256, the first candidate in [1, order-1], and sign uses that nonce.", "quantifier": "every order, private key and 32-byte digest", "why_tests_cant": "published vectors cover a few keys; the retry path and digests at or above the order have negligible probability", "anchors": ["bitforge/utils/ecdsa.py:deterministic_generate_k", "bitforge/utils/ecdsa.py:sign"]}
{"id": "C79", "title": "Conversion between integers and bytes", "statement": "to_bytes(v, length, order) gives the length bytes of v modulo 256^length, from_bytes inverts it in either byte order, signed or not, for any byte string; int_to_bytes gives the shortest encoding and int_from_bytes inverts it; bytes_from_ints and bytes_to_ints are inverse.", "quantifier": "every integer, length, byte order and byte string", "why_tests_cant": "all integers and lengths; the signed branch is not used elsewhere in the code", "anchors": ["bitforge/utils/intbytes.py:to_bytes", "bitforge/utils/intbytes.py:from_bytes", "bitforge/utils/intbytes.py:int_to_bytes", "bitforge/utils/intbytes.py:int_from_bytes", "bitforge/utils/intbytes.py:bytes_from_ints"]}
{"id": "C80", "title": "verify agrees with the reference client", "statement": "Interpreter.verify returns True for a script_sig, a script_pubkey and flags without SCRIPT_VERIFY_P2SH exactly when VerifyScript of the reference client does, given the same answers about signatures and lock times.", "quantifier": "every pair of well-formed scripts and every set of flags without P2SH, every family of hash functions", "why_tests_cant": "infinitely many scripts, each with its own run; a single opcode in a rare state is enough to split consensus", "anchors": ["bitforge/script/interpreter.py:Interpreter.verify", "bitforge/script/interpreter.py:Interpreter.evaluate", "bitforge/script/interpreter.py:Interpreter.step"]}
{"id": "C81", "title": "Comparison and hashing obey Python's contracts", "statement": "Opcodes are ordered by their numbers and all six comparison operators agree with that; equality of instructions, scripts, inputs, outputs and transactions is an equivalence relation; values that are equal have equal hashes; and every value of the library can be hashed (put in a set, used as a key of a dictionary).", "quantifier": "every opcode and other object, every pair of instructions, scripts, inputs, outputs and transactions, every network, address and key, every hash function", "why_tests_cant": "equal values have many representations (str or bytearray, different classes), and identity of objects is hidden by constants that are compared with themselves", "anchors": ["bitforge/script/opcode.py:Opcode.__eq__", "bitforge/script/opcode.py:Opcode.__lt__", "bitforge/script/opcode.py:Opcode.__hash__", "bitforge/script/instruction.py:Instruction.__eq__", "bitforge/script/instruction.py:Instruction.__hash__", "bitforge/networks.py:Network"]}
{"id": "C82", "title": "Printing an object succeeds, identifies it and keeps secrets", "statement": "repr of every opcode, instruction, script, key, address, unit and URI succeeds; objects of the same class that print the same are equal; and printing a private key does not reveal its secret.", "quantifier": "every opcode, well-formed script, key and address of a known network, unit and URI", "why_tests_cant": "that no two objects print the same is a statement about all pairs; opcodes without a name are a corner of the table", "anchors": ["bitforge/script/opcode.py:Opcode.__repr__", "bitforge/script/instruction.py:Instruction.__repr__", "bitforge/script/script.py:Script.__repr__", "bitforge/privkey.py:PrivateKey.__repr__", "bitforge/pubkey.py:PublicKey.__repr__", "bitforge/address.py:Address.__repr__", "bitforge/unit.py:Unit.__repr__", "bitforge/uri.py:URI.__repr__", "bitforge/unit.py:Unit.__str__"]}
{"id": "C83", "title": "The reference client accepts a signed address input", "statement": "Let an AddressInput be created for an address, and let can_sign be true of a key. Then the transaction, once that input is signed with the key and SIGHASH_ALL, and after any further signing of other inputs, is accepted by the signature and script checks of the reference client as spending a pay-to-public-key-hash output of that address, whatever verification flags are set (unless the signature itself is the hash of the key, which the reference client would delete from the script).", "quantifier": "every transaction in range, input position, address, key, nonce, hash function, set of verification flags, and sequence of further signings", "why_tests_cant": "needs the composition of serialisation, hashing, signing, DER and script evaluation, for all keys and transactions, against a second implementation of consensus rules", "anchors": ["bitforge/transaction/transaction.py:Transaction.sign", "bitforge/transaction/input.py:AddressInput.create", "bitforge/transaction/input.py:AddressInput.can_sign", "bitforge/transaction/input.py:AddressInput.sign", "bitforge/privkey.py:PrivateKey.sign"]}
{"id": "C84", "title": "The reference client accepts a signed multisig input", "statement": "Let a MultisigInput be created for public keys, and let can_sign be true of some keys. Then the transaction, once that input is signed with these keys and SIGHASH_ALL, is accepted by the reference client as spending a pay-to-script-hash output of its redeem script.", "quantifier": "every transaction in range, input position, list of public keys, list of keys, nonces, hash function, set of verification flags, and sequence of further signings", "why_tests_cant": "depends on the order in which keys are given; the project's tests never evaluate what they sign", "anchors": ["bitforge/transaction/transaction.py:Transaction.sign", "bitforge/transaction/input.py:MultisigInput.create", "bitforge/transaction/input.py:MultisigInput.can_sign", "bitforge/transaction/input.py:ScriptInput.sign", "bitforge/script/script.py:RedeemMultisig.create"]}
{"id": "C85", "title": "The signature type selects what is signed", "statement": "The signatures that sign(..., sigtype) puts in an input are signatures of the digest that the reference client computes for that hash type (SIGHASH_ALL, NONE, SINGLE, with or without ANYONECANPAY) and the script of that input.", "quantifier": "every transaction in range, input, list of keys, nonces, hash type and hash function", "why_tests_cant": "the project never uses another type than SIGHASH_ALL; the digest can only be compared with another implementation", "anchors": ["bitforge/transaction/transaction.py:Transaction.sign", "bitforge/transaction/input.py:AddressInput.sign", "bitforge/transaction/input.py:ScriptInput.sign"]}
{"id": "C86", "title": "The text of a URI is determined by its contents", "statement": "to_uri() of a URI that the library made is bitcoin: and the address, followed, if there is anything to show, by a question mark and the entries key=value in increasing order of keys, escaped and separated by ampersands. The entries are the amount in bitcoins if there is one, the message, label and r unless empty or zero, and the extras. The order in which the dictionary holds the extras makes no difference.", "quantifier": "every URI made from a text or a dictionary", "why_tests_cant": "all combinations of attributes, keys and characters, and all orders of a dictionary", "anchors": ["bitforge/uri.py:URI.to_uri", "bitforge/uri.py:URI._build_from_dict"]}
{"id": "C87", "title": "A failed verification is explained", "statement": "verify() returns False with the error e in errstr if and only if e is the reason: the table of reasons names for every error the condition on the scripts, or on the state and the instruction, under which it is reported (push too long, too many operations, disabled opcode, stack too short for the opcode, operand that is no number, ...). There is never more than one reason; an instruction passes if and only if there is none. False never comes without an error, True never with one. The part of the script that would be signed begins after the last OP_CODESEPARATOR that was executed.", "quantifier": "every pair of scripts, every combination of flags, every state of the interpreter and every instruction", "why_tests_cant": "all opcodes on all stacks with all flags", "anchors": ["bitforge/script/interpreter.py:Interpreter.step", "bitforge/script/interpreter.py:Interpreter.evaluate", "bitforge/script/interpreter.py:Interpreter.verify"]}
{"id": "C88", "title": "Rejection is by the library's own exceptions", "statement": "Whatever bytes or text are given to the constructors and to from_bytes, from_hex, from_wif, from_string, an input that is not accepted is rejected with an exception of the class it documents: PrivateKey.Error, PublicKey.Error, Address.Error, Transaction.Error for the constructors of these classes, BitforgeError for scripts, opcodes, inputs, outputs, transactions and extended keys. No other exception (UnicodeError, AttributeError, OverflowError, TypeError) escapes.", "quantifier": "every byte string, every text, every combination of arguments", "why_tests_cant": "the absence of other exceptions on all byte strings and texts", "anchors": ["bitforge/privkey.py:PrivateKey.from_wif", "bitforge/pubkey.py:PublicKey.from_bytes", "bitforge/address.py:Address.from_bytes", "bitforge/hdprivkey.py:HDPrivateKey.from_string", "bitforge/script/script.py:Script.from_bytes", "bitforge/transaction/transaction.py:Transaction.from_bytes", "bitforge/errors.py:BitforgeError"]}
{"id": "C89", "title": "Identifiers are binding", "statement": "Two valid public keys (or two private keys) with the same address are the same key, or their serialisations are a collision of RIPEMD-160 of SHA-256; two scripts with the same address or the same pay-to-script output are equal or their serialisations collide; the text of an address determines hash, network and kind; two transactions with the same id are equal or their serialisations collide; two payloads that are equal were computed from transactions that agree in signature type, version, outputs, lock time, outpoints, sequence numbers and the signed input, or the hashed strings collide.", "quantifier": "all keys, scripts, addresses and transactions, all hash functions", "why_tests_cant": "it is about all pairs of objects", "anchors": ["bitforge/pubkey.py:PublicKey.to_address", "bitforge/privkey.py:PrivateKey.to_address", "bitforge/address.py:Address.to_string", "bitforge/transaction/transaction.py:Transaction.get_id", "bitforge/transaction/transaction.py:Transaction.sign"]}
{"id": "C90", "title": "Error messages say what is wrong", "statement": "An exception of the library carries the sentence of its class with the offending argument filled in: a byte string or text as a literal whose value is that very string, an integer or a length in decimal, an opcode by number and name, an unknown attribute of a network with its value, the first object in a list that has the wrong type, the token of a script that cannot be read. Different strings (or integers) give different messages, formatting never fails, str(e) is the message, and no message shows the secret of a key.", "quantifier": "every argument of find, decode_hex, decode_base58h, decode_script_number, Buffer.read, the constructors and from_* functions of keys, addresses, opcodes, instructions and transactions, Script.from_string, AddressInput.sign and DataOutput.create", "why_tests_cant": "that every string can be read back from the message is about all strings, quotes and escapes included; the class of the exception must agree with the plain function for all inputs", "anchors": ["bitforge/errors.py:BitforgeError", "bitforge/errors.py:StringError", "bitforge/errors.py:NumberError", "bitforge/errors.py:KeyValueError", "bitforge/privkey.py:PrivateKey.from_wif", "bitforge/script/script.py:Script.from_string", "bitforge/script/instruction.py:Instruction.__new__", "bitforge/transaction/transaction.py:Transaction.__new__", "bitforge/errors.py:BitforgeError.__init__", "bitforge/errors.py:BitforgeError.prepare", "bitforge/errors.py:BitforgeError.__str__", "bitforge/errors.py:ObjectError.prepare", "bitforge/errors.py:StringError.prepare", "bitforge/errors.py:NumberError.prepare", "bitforge/errors.py:KeyValueError.prepare", "bitforge/tools.py:enforce", "bitforge/tools.py:enforce_all"]}
{"id": "C91", "title": "Points are equal exactly when they are the same point", "statement": "Two Point objects are == exactly when they are the same point of the curve group, also when they come out of different computations; != is the negation of ==, equal points have equal hashes, points of equal curves can be compared and added, str() tells different points apart, and a declared order is an order of the point.", "quantifier": "all curves, points, multipliers and declared orders", "why_tests_cant": "whether two computations of one point give the same coordinates depends on the bits of the multiplier and the order of the point: the first failure on a curve with 9 points is at 35", "anchors": ["bitforge/utils/ellipticcurve.py:Point.__eq__", "bitforge/utils/ellipticcurve.py:Point.__init__", "bitforge/utils/ellipticcurve.py:Point.__add__", "bitforge/utils/ellipticcurve.py:Point.__mul__", "bitforge/utils/ellipticcurve.py:Point.__str__", "bitforge/utils/ellipticcurve.py:CurveFp.__str__", "bitforge/utils/ellipticcurve.py:Point.pair", "bitforge/utils/ellipticcurve.py:Point.order", "bitforge/utils/ellipticcurve.py:Point.curve", "bitforge/utils/ellipticcurve.py:CurveFp.__init__"]}
{"id": "C92", "title": "The payment of the examples works for every key, coin and amount", "statement": "The programs of examples/, for any coins of any private keys of any network and any payments to addresses, never fail (unless a nonce gives r or s zero); the unsigned transaction parses back to an equal one; the text of the signed one is the wire format of the transaction that was asked for, with a signature and the public key in each input, parses back, and each input is accepted by the reference client as spending an output of the address of its key.", "quantifier": "all numbers of coins and payments, private keys, compressions, networks, transaction ids, indices, amounts, nonces, verification flags", "why_tests_cant": "the examples are one key and one coin, and print; whether the whole chain from the key to the accepted bytes holds depends on every byte of every step, and on the interplay of the inputs that are signed one after the other", "anchors": ["bitforge/transaction/transaction.py:Transaction.sign", "bitforge/transaction/transaction.py:Transaction.to_hex", "bitforge/transaction/transaction.py:Transaction.from_bytes", "bitforge/transaction/input.py:AddressInput.create", "bitforge/transaction/output.py:AddressOutput.create", "bitforge/pubkey.py:PublicKey.to_address"]}
{"id": "C93", "title": "Script.compile makes the script that the schematic says", "statement": "Script.compile returns, for a schematic each element of which stands for an instruction (an opcode, an opcode number, a byte string with the shortest direct push, or a tuple of an opcode or its number with its data), the script of these instructions, of the class of the template that they match; what a template class builds from a schematic compile builds too; otherwise it raises what the first bad element calls for.", "quantifier": "every list of schematic elements", "why_tests_cant": "all schematics; the shapes that make the classifier raise and the empty byte string are not in the tests", "anchors": ["bitforge/script/script.py:Script.compile", "bitforge/script/script.py:Script.create", "bitforge/script/instruction.py:Instruction.push_for"]}
{"id": "C94", "title": "Money sent to several keys can be spent by them", "statement": "MultisigOutput.create, and ScriptOutput.create of the redeem script, make outputs that a transaction can carry, serialise and parse; a MultisigInput for the same keys, signed with as many private keys as required, gives a transaction that serialises, parses back and is accepted by the reference client as spending either output.", "quantifier": "every list of up to 16 public keys, every required number, every amount and every transaction", "why_tests_cant": "the tests build inputs and outputs but evaluate no scripts, and never spend what they send", "anchors": ["bitforge/transaction/output.py:MultisigOutput.create", "bitforge/transaction/output.py:ScriptOutput.create", "bitforge/transaction/input.py:MultisigInput.create", "bitforge/transaction/transaction.py:Transaction.sign"]}
{"id": "C95", "title": "Truncated transactions are refused", "statement": "Whenever Transaction.from_bytes, Input.from_bytes or Output.from_bytes accepts a string, it depends on a definite number of leading bytes: every cut that keeps them gives the same object, every shorter cut raises Buffer.InsufficientData with remaining < requested; so no proper prefix of a serialised transaction is accepted, nor of its hexadecimal form (InvalidHex after an odd number of digits).", "quantifier": "every byte string, every position of the cut, every transaction", "why_tests_cant": "the tests parse whole, well-formed transactions only", "anchors": ["bitforge/transaction/transaction.py:Transaction.from_bytes", "bitforge/transaction/transaction.py:Transaction.from_buffer", "bitforge/transaction/input.py:Input.from_buffer", "bitforge/transaction/output.py:Output.from_buffer", "bitforge/tools.py:Buffer.read"]}
{"id": "C96", "title": "The text of an address or key shows what it is", "statement": "Every text that Address.from_string accepts begins with 1 (key hash) or 3 (script hash) on the main network and with m or n, or 2, on the test network; every text that PrivateKey.from_wif accepts begins with 5 (uncompressed) or K or L (compressed), 9 or c on the test network, and has 51 or 52 characters; every text of 111 characters that HDPrivateKey.from_string or HDPublicKey.from_string accepts begins with xprv, tprv, xpub or tpub as its kind and network require; no text is accepted as two of the four, and hexadecimal forms of addresses, private keys and public keys have different lengths.", "quantifier": "every text", "why_tests_cant": "the tests look at a few addresses and keys; the statement is about ranges of 2^160 and 2^256 numbers in base 58", "anchors": ["bitforge/address.py:Address.from_string", "bitforge/privkey.py:PrivateKey.from_wif", "bitforge/hdprivkey.py:HDPrivateKey.from_string", "bitforge/hdpubkey.py:HDPublicKey.from_string", "bitforge/networks.py"]}
{"id": "C97", "title": "Verification flags only restrict what is accepted", "statement": "If Interpreter.verify accepts a pair of scripts under some flags, it accepts it under every subset of those flags, and ends with the same stacks: each flag is a soft fork. Only P2SH, NULLDUMMY, SIGPUSHONLY, MINIMALDATA and DISCOURAGE_UPGRADABLE_NOPS have a say in whether a pair is accepted; each of these five rejects some pair that is accepted without flags, and no other flag (STRICTENC, DERSIG, LOW_S, CHECKLOCKTIMEVERIFY) rejects any.", "quantifier": "every pair of scripts, every two sets of flags, every previous state of the Interpreter, every hash functions", "why_tests_cant": "two runs of arbitrary scripts under different flags are related; tests run chosen scripts under chosen flags", "anchors": ["bitforge/script/interpreter.py:Interpreter.verify", "bitforge/script/interpreter.py:Interpreter.evaluate", "bitforge/script/interpreter.py:Interpreter.step"]}
{"id": "C98", "title": "A signature cannot be changed without the key", "statement": "Who has a valid signature but not the key cannot make another valid signature of the same value: for one key, one value and one r there is one s that verify accepts; PrivateKey.verify accepts one text; and a signed transaction has one form that is accepted.", "quantifier": "every key, every value, every signature, every signed transaction with an AddressInput, every nonce", "why_tests_cant": "the signatures that exist for a value are counted in the group of the curve; no test can enumerate them", "anchors": ["bitforge/utils/ecdsa.py:verify", "bitforge/utils/ecdsa.py:sign", "bitforge/privkey.py:PrivateKey.sign", "bitforge/privkey.py:PrivateKey.verify", "bitforge/transaction/transaction.py:Transaction.sign"]}
{"id": "C99", "title": "Two signatures do not reveal the key by a shared nonce", "statement": "The deterministic nonce of sign depends on the key and on the value modulo the order: signatures of values with different residues take nonces from different inputs of the generator, and values with equal residues have the same signature. (Two signatures with one nonce, of values with different residues, determine the key.)", "quantifier": "every key, every two values, every hash functions", "why_tests_cant": "relates the signatures of all pairs of values; a test would need the one pair that collides", "anchors": ["bitforge/utils/ecdsa.py:sign", "bitforge/utils/ecdsa.py:deterministic_generate_k"]}
{"id": "C100", "title": "What lies below the stack does not matter", "statement": "A script that does not ask for the depth does the same on top of any other stack: if evaluate succeeds on a stack, it succeeds on the same stack with anything below it, within the limit of 1000 elements, and leaves what is below untouched. In particular, an accepted pair of scripts stays accepted when pushes are put in front of the input script.", "quantifier": "every script without OP_DEPTH, every state, every stack below, every flags", "why_tests_cant": "relates two runs of an arbitrary script on stacks that differ in an arbitrary part", "anchors": ["bitforge/script/interpreter.py:Interpreter.step", "bitforge/script/interpreter.py:Interpreter.evaluate", "bitforge/script/interpreter.py:Interpreter.verify"]}
{"id": "C101", "title": "Scripts run one after the other", "statement": "Evaluating the concatenation of two scripts is evaluating the first and going on with the second, from the stacks, conditionals and number of operations that the first left behind. verify runs the input script and the output script apart: for an input script that only pushes, it accepts exactly if the concatenation evaluates to true; for others neither the alternative stack nor an open conditional is passed on, so that scripts are refused whose concatenation evaluates to true.", "quantifier": "every two scripts, every state, every flags without P2SH", "why_tests_cant": "two ways of running arbitrary scripts are compared", "anchors": ["bitforge/script/interpreter.py:Interpreter.evaluate", "bitforge/script/interpreter.py:Interpreter.verify"]}
{"id": "C102", "title": "The memory of the interpreter is bounded", "statement": "Wherever the evaluation of a script of at most 10000 bytes has got to, accepted or not, the two stacks hold at most 402 elements more than they held at the start plus the bytes of the script, and each has at most 520 bytes if this held at the start. In an accepted verification they never held more than 1603 elements, and there is an accepted one in which they do.", "quantifier": "every script, every start of every run of it, every flags", "why_tests_cant": "a bound on all states of all runs of all scripts; the largest stack is built only by scripts made for it", "anchors": ["bitforge/script/interpreter.py:Interpreter.step", "bitforge/script/interpreter.py:Interpreter.evaluate", "bitforge/script/interpreter.py:Interpreter.verify"]}
{"id": "C103", "title": "The size of a transaction is known before it is signed", "statement": "A serialised transaction has eight bytes, the two counts, the identifier, eight bytes and the script with its count for every input, eight bytes and the script with its count for every output. Signing changes the size by exactly the difference of the script of the input that is signed. A signature with its type has 9 to 72 bytes, so that signing the input of an address adds 19 to 82 bytes with a compressed key and 51 to 114 with another, and a payment of the examples has 34 bytes per payment and at most 148 or 180 per coin besides the counts.", "quantifier": "every transaction that can be serialised; every key, nonce, coin and payment", "why_tests_cant": "the length of a signature varies with the nonce; a bound over all keys and digests needs an argument about the numbers", "anchors": ["bitforge/transaction/transaction.py:Transaction.to_bytes", "bitforge/transaction/transaction.py:Transaction.sign", "bitforge/transaction/input.py:AddressInput.sign", "bitforge/encoding.py:encode_varint"]}
{"id": "C104", "title": "Signing call by call is signing in parallel", "statement": "A sequence of calls of sign, each on what the call before returned, succeeds exactly if the calls are on different inputs and each would succeed on the transaction as it was at the start. The result has, at the input of each call, what that call alone makes of the first transaction, and is the first transaction elsewhere. So the order of the calls does not matter, every input is signed for the first transaction, no input is signed twice, and each call uses up one of the inputs that can be signed.", "quantifier": "every sequence of calls of any length, any signers, keys, types and indices counted from 0, every transaction", "why_tests_cant": "sequences of any length in any order with any signers", "anchors": ["bitforge/transaction/transaction.py:Transaction.sign", "bitforge/transaction/transaction.py:Transaction.replace_inputs", "bitforge/transaction/input.py:Input.sign"]}
{"id": "C105", "title": "Chains of payments are valid", "statement": "Keys are kept as WIFs, addresses are passed on as texts, and each payment of the program of the examples spends outputs of earlier transactions, of others or its own, that pay to the addresses of its keys. In every such chain, of any length, each input of each transaction that the program has made names an output of an earlier transaction by its hash, and the reference client accepts the input for the script of this output under all flags. The chain can always be continued by spending what it has paid, unless the signer refuses the nonce.", "quantifier": "every chain of transactions of any length, every key, text, coin, amount and nonce", "why_tests_cant": "chains of any length; the parts (WIF, address text, script, serialisation, hash, signature) must fit for all values at once", "anchors": ["examples/example_pubkey.py", "bitforge/privkey.py:PrivateKey.from_wif", "bitforge/address.py:Address.from_string", "bitforge/transaction/transaction.py:Transaction.sign", "bitforge/transaction/transaction.py:Transaction.to_hex"]}
{"id": "C106", "title": "Only the owner can spend", "statement": "Whatever the reference client accepts as spending an AddressOutput shows a public key with the hash of the address and a signature of the transaction by it; a MultisigOutput, as many signatures as it needs, by some of its keys in their order; a ScriptOutput, where pay to script hash is verified, a script with the hash of the redeem script and a stack on which it succeeds (for a multisig script: its signatures, or a script that collides with it); nothing spends a DataOutput. Conversely such signatures suffice for an AddressOutput and a MultisigOutput under all flags, and where pay to script hash is not verified the redeem script suffices for a ScriptOutput. What spends an AddressOutput made from the address of a multisig script shows a public key that collides with the script.", "quantifier": "every output that the constructors make, every transaction, every input script, all verification flags, every hash function", "why_tests_cant": "says that no input script at all is accepted without the signatures", "anchors": ["bitforge/transaction/output.py:AddressOutput", "bitforge/transaction/output.py:ScriptOutput", "bitforge/transaction/output.py:MultisigOutput", "bitforge/transaction/output.py:DataOutput", "bitforge/script/script.py:PayToPubkeyOut", "bitforge/script/script.py:PayToScriptOut", "bitforge/script/script.py:RedeemMultisig", "bitforge/script/script.py:OpReturnOut"]}
{"id": "C107", "title": "A signature authorises one transaction", "statement": "A signature by a private key is one of a single digest. So the signature, and the input script, that Transaction.sign makes for an AddressInput, and each signature it makes for a MultisigInput, are accepted by the reference client in no other transaction and at no other input than the one signed, up to the scripts of the inputs, unless double SHA-256 collides on the two texts that are signed.", "quantifier": "every key, digest and signature; every transaction that is signed, every transaction and input the signature is tried in, all verification flags, every hash function", "why_tests_cant": "says that a signature is refused in all other transactions, of which there are infinitely many", "anchors": ["bitforge/transaction/transaction.py:Transaction.sign", "bitforge/transaction/input.py:AddressInput", "bitforge/transaction/input.py:MultisigInput", "bitforge/privkey.py:PrivateKey.sign"]}
{"id": "C108", "title": "Why a text is refused as a script", "statement": "Script.from_string cuts the text at every space and reads the words from the left. It is refused exactly when some words do not spell an instruction or the whole has a shape that trips the classifier, and the first words that do not fit decide which exception is raised: unknown name, size that is no number or out of range, missing arguments, data without 0x, data that is not hexadecimal, data of another length than announced or too long for the opcode. Every list of words spells exactly one list of instructions or is refused for exactly one reason.", "quantifier": "every text, including non-ASCII characters and the digits of all scripts", "why_tests_cant": "all texts, and the order in which several faults of one text are noticed", "anchors": ["bitforge/script/script.py:Script.from_string", "bitforge/script/opcode.py:Opcode.from_name", "bitforge/script/opcode.py:Opcode.const_push_for", "bitforge/script/instruction.py:Instruction.__new__"]}
{"id": "C109", "title": "What the text of a URI means", "statement": "URI(text) reads a text exactly by a grammar: a scheme before a colon unless a number follows, an authority after two slashes, a path, a query up to the fragment, entries between ampersands and semicolons with something after the equals sign, plus signs as spaces and escapes as Latin-1. The address is the path, or the authority if the path is empty; of several entries with the same key the last counts; the amount is the decimal number rounded to a float, multiplied by 10**8, rounded again and truncated; all other entries are attributes or extras. A text is refused exactly for unmatched brackets in the authority, an amount that float() or Unit() refuses, or an address that Address.from_string refuses, with the exception of the first of these.", "quantifier": "every text and every hash function", "why_tests_cant": "all texts, and the interplay of schemes, authorities, parameters, escapes, repeated keys and roundings", "anchors": ["bitforge/uri.py:URI.parse", "bitforge/uri.py:URI.__init__", "bitforge/uri.py:URI._build_from_dict"]}
{"id": "C110", "title": "Payment requests are read as BIP 21 says", "statement": "A text that is a BIP 21 payment request with a valid address is accepted, unless it has an unknown required parameter or an amount that is no plain decimal number; the amount is the number of satoshis written, and label and message are the texts that the escapes spell in UTF-8.", "quantifier": "every payment request", "why_tests_cant": "all requests: every spelling of the scheme, every escape, every amount up to 21 million bitcoins", "anchors": ["bitforge/uri.py:URI.parse", "bitforge/uri.py:URI.__init__", "bitforge/unit.py:Unit.__init__"]}
{"id": "C111", "title": "The public keys of a path are those of BIP 32", "statement": "Successive calls k.derive(i1)...derive(in) on an extended public key return the key that BIP 32 has at the path i1/.../in below k, with its chain code, depth, child number and parent fingerprint, exactly when that key exists; and the owner of the secret of k can compute its secret.", "quantifier": "every extended public key, every path of any length, every hash function", "why_tests_cant": "paths have any length, and the key at the end depends on a chain of hashes and additions of points; the tests use no paths of public keys with independent values", "anchors": ["bitforge/hdpubkey.py:HDPublicKey.derive", "bitforge/hdpubkey.py:HDPublicKey.__new__"]}
{"id": "C112", "title": "Transactions pass the context-free checks of the reference client", "statement": "A transaction that the library builds, signs and serialises is not refused by CheckTransaction of the reference client: it has inputs and outputs, at most 1000000 bytes, amounts that come to at most twenty-one million coins, no previous output twice, and no null previous output.", "quantifier": "every transaction that can be serialised; every payment of the examples, with any coins, amounts, keys and nonces", "why_tests_cant": "the conditions range over sums and pairs of lists of any length; the tests only build transactions of one or two inputs", "anchors": ["bitforge/transaction/transaction.py:Transaction.__new__", "bitforge/transaction/transaction.py:Transaction.to_bytes", "bitforge/transaction/transaction.py:Transaction.sign"]}
{"id": "C113", "title": "Outputs and payments are relayed by the reference client", "statement": "The outputs of AddressOutput, ScriptOutput, MultisigOutput and DataOutput are of a form that version 0.11 of the reference client relays, and the signed payments of the examples are standard: version 1, less than 100000 bytes, inputs that only push at most 1650 bytes, and no amount below dust. A signed ScriptInput or MultisigInput is such an input too.", "quantifier": "every amount, address, script, list of keys and data; every payment of the examples, every minimal fee", "why_tests_cant": "whether a script has a form is a statement about all its readings; the number of keys, coins and payments is unbounded", "anchors": ["bitforge/transaction/output.py:AddressOutput.create", "bitforge/transaction/output.py:ScriptOutput.create", "bitforge/transaction/output.py:MultisigOutput.create", "bitforge/transaction/output.py:DataOutput.create", "bitforge/transaction/input.py:AddressInput.sign", "bitforge/transaction/input.py:ScriptInput.sign"]}
{"id": "C114", "title": "The lock time of a transaction is obeyed", "statement": "A transaction with a lock time cannot be in a block (IsFinalTx of the reference client) until the height or the time has passed; signing it does not change this; the payments of the examples can be in any block.", "quantifier": "every transaction that can be serialised, every height and time; every payment of the examples", "why_tests_cant": "the tests never set a lock time; the statement is about all heights, times and sequence numbers", "anchors": ["bitforge/transaction/transaction.py:Transaction.__new__", "bitforge/transaction/transaction.py:Transaction.sign", "bitforge/transaction/input.py:AddressInput.create"]}
{"id": "C115", "title": "A payment request is paid as it asks", "statement": "A request for an amount to an address, made with URI(...).to_uri(), read with URI(text) and paid with the program of the examples, gives a transaction with an output of that amount to that address, which the owner of the address can spend.", "quantifier": "every key or script hash, amount, label, coins, change and nonces", "why_tests_cant": "it composes texts of floating-point numbers, addresses, serialisation and signatures; the tests check each for a few values", "anchors": ["bitforge/uri.py:URI.to_uri", "bitforge/uri.py:URI.__init__", "bitforge/transaction/output.py:AddressOutput.create", "bitforge/unit.py:Unit"]}
{"id": "C116", "title": "Money of other currencies is converted at the rate", "statement": "Unit.from_fiat(value, rate) is the whole number of satoshis that the value buys at the rate, Unit.at_rate is the worth of an amount, more money is never fewer satoshis, and an amount converted there and back at one rate is the same amount.", "quantifier": "every value, rate and amount", "why_tests_cant": "rounding errors of four floating-point operations depend on every bit of the value and the rate; the tests convert a handful of them", "anchors": ["bitforge/unit.py:Unit.from_fiat", "bitforge/unit.py:Unit.at_rate", "bitforge/unit.py:Unit._set_values"]}
{"id": "C117", "title": "A transaction is refused for the first field that is wrong", "statement": "Transaction.from_bytes refuses a string exactly when it does not begin with a transaction, and the exception is that of the first field that is wrong: InsufficientData with the number of bytes there are and the number that is wanted, AttributeError for a script that the classifier trips over, OverflowError for a count of inputs or outputs of 2^63 or more, and only after all fields have been read, missing inputs and then missing outputs. The same holds of scripts, inputs and outputs, and of hexadecimal text.", "quantifier": "every byte string and every text", "why_tests_cant": "which field is the first to be wrong depends on every count and length before it; the tests of malformed transactions have one of each kind", "anchors": ["bitforge/transaction/transaction.py:Transaction.from_bytes", "bitforge/transaction/transaction.py:Transaction.from_hex", "bitforge/transaction/input.py:Input.from_buffer", "bitforge/transaction/output.py:Output.from_buffer", "bitforge/script/script.py:Script.from_bytes", "bitforge/tools.py:Buffer.read"]}
{"id": "C118", "title": "What every text and byte string is read as, as a key or an address", "statement": "For PrivateKey.from_bytes, from_hex and from_wif, PublicKey.from_bytes and from_hex, Address.from_bytes, from_hex and from_string, and HDPrivateKey.from_string and HDPublicKey.from_string, the outcome on every input is given: the value that is returned in terms of the fields written in the input, or the exception, which is that of the first of these that applies: characters that are not ASCII, wrong digits or checksum, wrong length, wrong mark, unknown version, number out of range or point off the curve. Each input has exactly one outcome.", "quantifier": "every byte string and every text, both networks, every hash function", "why_tests_cant": "the tests have one malformed input of each kind; which exception is raised when several things are wrong at once, and that nothing else can happen, is a statement about all inputs", "anchors": ["bitforge/privkey.py:PrivateKey.from_bytes", "bitforge/privkey.py:PrivateKey.from_wif", "bitforge/privkey.py:PrivateKey.from_hex", "bitforge/pubkey.py:PublicKey.from_bytes", "bitforge/pubkey.py:PublicKey.from_hex", "bitforge/address.py:Address.from_bytes", "bitforge/address.py:Address.from_string", "bitforge/address.py:Address.from_hex", "bitforge/hdprivkey.py:HDPrivateKey.from_string", "bitforge/hdpubkey.py:HDPublicKey.from_string", "bitforge/pubkey.py:find_network"]}
{"id": "C119", "title": "What every object is written as, and why it cannot be written", "statement": "For to_bytes and to_hex of instructions, scripts, inputs, outputs, transactions, private keys, public keys and addresses, to_wif, to_string of addresses and extended keys, to_hash of scripts, and get_id of transactions, the outcome on every object is given, also when its fields are out of range: the bytes or text in terms of the fields, or the exception of the first part that cannot be written. Numbers in transactions and secrets are cut to their width, negative ones are written as zero; a coordinate or version byte that does not fit is a ValueError; an extended key is written only if all its bytes and those of its checksum are below 128.", "quantifier": "every object of each class, with any field values; every hash function", "why_tests_cant": "the tests write objects that were read from valid data; out-of-range fields, objects with several defects at once, and that nothing else can happen are statements about all objects", "anchors": ["bitforge/script/instruction.py:Instruction.to_bytes", "bitforge/script/script.py:Script.to_bytes", "bitforge/transaction/input.py:Input.to_bytes", "bitforge/transaction/output.py:Output.to_bytes", "bitforge/transaction/transaction.py:Transaction.to_bytes", "bitforge/transaction/transaction.py:Transaction.get_id", "bitforge/privkey.py:PrivateKey.to_wif", "bitforge/privkey.py:PrivateKey.to_bytes", "bitforge/pubkey.py:PublicKey.to_bytes", "bitforge/address.py:Address.to_bytes", "bitforge/address.py:Address.to_string", "bitforge/hdprivkey.py:HDPrivateKey.to_string", "bitforge/hdpubkey.py:HDPublicKey.to_string", "bitforge/address.py:Address.to_hex", "bitforge/privkey.py:PrivateKey.to_hex", "bitforge/pubkey.py:PublicKey.to_hex", "bitforge/script/instruction.py:Instruction.to_hex", "bitforge/script/script.py:Script.to_hex", "bitforge/script/script.py:Script.to_hash", "bitforge/transaction/input.py:Input.to_hex", "bitforge/transaction/output.py:Output.to_hex", "bitforge/transaction/transaction.py:Transaction.get_id_bytes", "bitforge/tools.py:Buffer.write"]}
{"id": "C120", "title": "What signing does in every case", "statement": "For every input, list of keys, digest, type and signer, the outcome of sign is given: a plain Input is refused; an AddressInput takes exactly one key and becomes an Input whose script pushes the signature with its type byte and the bytes of the public key; a ScriptInput or MultisigInput becomes an Input whose script is OP_0, the signatures in the order of the keys and the redeem script; otherwise the exception of the first step that fails, in the order of the steps. For every transaction, valid or not, and every index, the outcome of sign is given: the constructor's refusal, the exception of writing the transaction with the other scripts emptied, an IndexError, the exception of signing the input on the double hash of those bytes and the type, or the transaction with that input replaced, and unchanged when the index is negative.", "quantifier": "every input and transaction with any field values, every list of private keys, digest, index, signature type and signer; every hash function", "why_tests_cant": "the tests sign a few valid transactions; the order of failures, other lists of keys, indices and types, and transactions with several defects are unbounded", "anchors": ["bitforge/transaction/transaction.py:Transaction.sign", "bitforge/transaction/input.py:Input.sign", "bitforge/transaction/input.py:AddressInput.sign", "bitforge/transaction/input.py:ScriptInput.sign", "bitforge/script/script.py:PayToPubkeyIn.create", "bitforge/script/script.py:PayToScriptIn.create"]}
{"id": "C121", "title": "What the makers of scripts, inputs and outputs make, and what can_sign says", "statement": "For every argument, the outcome of create of each kind of script, output and input is given: the exact instructions made, or the exception of the first step that fails in the order of the steps (a number of signatures outside 0..16 before any key is written, a key with coordinates that do not fit before the number of keys, a redeem script that cannot be written before the signatures, data above 80 bytes before anything else, a bytearray refused). For every input, including ones with scripts of the wrong class or too few instructions, and every list of private keys, the outcome of can_sign is given: for an AddressInput the class, index and hash of the one key's public key; for a MultisigInput the class, the first opcode as a number, the count, the keys read from the middle instructions as main network keys, and whether the point, network and form of each private key's public key is among them.", "quantifier": "every address, script, public key, byte string of either type, amount, number of signatures, input with any script, and list of private keys; every hash function", "why_tests_cant": "the tests make one instance of each kind from valid arguments; invalid keys, counts, classes and data, and the order in which they are found, are unbounded", "anchors": ["bitforge/script/script.py:PayToPubkeyIn.create", "bitforge/script/script.py:PayToPubkeyOut.create", "bitforge/script/script.py:PayToScriptIn.create", "bitforge/script/script.py:PayToScriptOut.create", "bitforge/script/script.py:RedeemMultisig.create", "bitforge/script/script.py:OpReturnOut.create", "bitforge/transaction/output.py:AddressOutput.create", "bitforge/transaction/output.py:ScriptOutput.create", "bitforge/transaction/output.py:MultisigOutput.create", "bitforge/transaction/output.py:DataOutput.create", "bitforge/transaction/input.py:AddressInput.create", "bitforge/transaction/input.py:MultisigInput.create", "bitforge/transaction/input.py:AddressInput.can_sign", "bitforge/transaction/input.py:MultisigInput.can_sign", "bitforge/transaction/input.py:ScriptInput.create"]}
{"id": "C122", "title": "What making and deriving extended keys does in every case", "statement": "For every extended public key whose point has reduced coordinates on the curve, compressed or not, with any chain code, depth, index and network, the outcome of derive is given: a hardened child is a ValueError; otherwise m is the HMAC-SHA512 under the chain code of the written key and the key's own index in four bytes of two's complement; if the sum of the point and of the left half of m times the generator is infinity the outcome is a TypeError; else the child is compressed, has that point, the network of the extended key, the right half of m, the next depth, the index that was asked for, the stored fingerprint as parent, and its own fingerprint. HDPublicKey(...) keeps its arguments and computes the fingerprint of what the key is written as, or raises what writing it raises. For every extended private key derive raises: AttributeError, or UnicodeDecodeError when the child is hardened and a byte of the secret or of the index is above 127.", "quantifier": "every extended key with any field values, every child index and both values of hardened; every hash function", "why_tests_cant": "the tests derive from one extended key; negative and large indices, uncompressed parents, other networks and the exceptions are unbounded, and the point at infinity cannot be reached by search", "anchors": ["bitforge/hdpubkey.py:HDPublicKey.derive", "bitforge/hdpubkey.py:HDPublicKey.__new__", "bitforge/hdprivkey.py:HDPrivateKey.derive", "bitforge/hdprivkey.py:calculate_fingerprint", "bitforge/hdpubkey.py:calculate_fingerprint"]}
{"id": "C123", "title": "What the interpreter does in every case", "statement": "For every state and instruction, step returns True and leaves the state t if and only if the instruction is within the limits (520 bytes of data, 201 operations, not disabled) and t is the state given for it: the element pushed, the conditional opened, turned or closed, the element skipped, or the effect of the opcode on the stacks, on the count of operations and on the code separator (OP_ABS leaves 1, OP_DROP drops up to two elements, OP_HASH160 and the signature opcodes never pass, the multisig opcodes pass only without signatures). For every instruction there is either exactly one such state or exactly one reason to fail, never both. evaluate returns True with the state t if and only if t is reached by such steps to the end, within the limits on the length, the stacks and open conditionals. verify returns True if and only if both scripts pass one after the other, something true is on top, and P2SH is not asked for; it raises e if and only if a script that is reached cannot be written because of e, or all is well, P2SH is asked for and e is AttributeError.", "quantifier": "every pair of scripts, every combination of flags, every state of the interpreter, every instruction and all hash functions", "why_tests_cant": "all opcodes on all stacks with all flags, and all sequences of them", "anchors": ["bitforge/script/interpreter.py:Interpreter.step", "bitforge/script/interpreter.py:Interpreter.evaluate", "bitforge/script/interpreter.py:Interpreter.verify", "bitforge/script/interpreter.py:Interpreter.check_lock_time", "bitforge/script/interpreter.py:Interpreter.__init__", "bitforge/script/interpreter.py:Interpreter.initialize", "bitforge/script/interpreter.py:Interpreter.check_signature_encoding", "bitforge/script/interpreter.py:Interpreter.check_pubkey_encoding"]}
{"id": "C124", "title": "What opcodes and instructions answer in every case", "statement": "For every number Opcode(number) gives that opcode from 0 to 255 and raises UnknownOpcodeNumber otherwise. The name of an opcode is _PUSH_n_BYTES for a direct push and otherwise its one name in the table (OP_0 and OP_1 where there are two), and a KeyError where there is none. is_number, number_value and for_number are the two directions of one correspondence between OP_0, OP_1 to OP_16 and the numbers; outside it number_value raises WrongOpcodeType, or KeyError for an opcode without a name, and for_number raises ValueError. is_const_push, is_var_push, is_push, data_length_max and data_length_nbytes follow the wire format. const_push_for, var_push_for and push_for find, for every length, the direct push, the counted push with the shortest sufficient count, and the first of the two, or raise the stated error. Instruction(opcode, data), Instruction.push_for, is_minimal_push, ==, and to_string of instructions and scripts have exactly the stated outcome in every case, including instructions that were not made by the library (is_minimal_push is an AttributeError for all short data but the one-byte strings that have an opcode of their own).", "quantifier": "every opcode, every integer, all data of either kind, every instruction and every script", "why_tests_cant": "all integers, all data and all lists of instructions", "anchors": ["bitforge/script/opcode.py:Opcode.__init__", "bitforge/script/opcode.py:Opcode.name", "bitforge/script/opcode.py:Opcode.number_value", "bitforge/script/opcode.py:Opcode.for_number", "bitforge/script/opcode.py:Opcode.const_push_for", "bitforge/script/opcode.py:Opcode.var_push_for", "bitforge/script/opcode.py:Opcode.push_for", "bitforge/script/opcode.py:Opcode.data_length_max", "bitforge/script/opcode.py:Opcode.data_length_nbytes", "bitforge/script/instruction.py:Instruction.__new__", "bitforge/script/instruction.py:Instruction.push_for", "bitforge/script/instruction.py:Instruction.is_minimal_push", "bitforge/script/instruction.py:Instruction.to_string", "bitforge/script/script.py:Script.to_string", "bitforge/script/instruction.py:Instruction.is_push", "bitforge/script/opcode.py:Opcode.is_number", "bitforge/script/opcode.py:Opcode.is_push", "bitforge/script/opcode.py:Opcode.is_const_push", "bitforge/script/opcode.py:Opcode.is_var_push", "bitforge/script/opcode.py:Opcode.bytes"]}
{"id": "C125", "title": "What keys and addresses are made of, and what they become, in every case", "statement": "For every network value, PrivateKey, PublicKey and Address take the network itself or the one of that name and otherwise raise their own UnknownNetwork error, before anything else is examined; PrivateKey then raises InvalidSecret unless 0 < secret < n, PublicKey raises InvalidPair unless the pair is on the curve, and Address raises InvalidType, then InvalidHashLength. For every integer secret, valid or not, to_public_key gives the reduced coordinates of secret times G with the network and the flag of the key, and a TypeError exactly when secret times G is the point at infinity; so do the constructor of extended private keys, to_hd_public_key and to_address, which cannot fail otherwise. The address of a public key or of a script is the HASH160 of what it is written as, and exists exactly when that can be written. from_seed refuses seeds under 32 bytes, raises InvalidSecret for a left half out of range, and otherwise gives the root of BIP32. derive of an extended private key never gives a child, for any secret.", "quantifier": "every integer secret, pair, hash, network value, script, extended key and seed", "why_tests_cant": "all integers as secrets and all seeds and scripts", "anchors": ["bitforge/privkey.py:PrivateKey.__new__", "bitforge/privkey.py:find_network", "bitforge/privkey.py:PrivateKey.to_public_key", "bitforge/privkey.py:PrivateKey.to_address", "bitforge/pubkey.py:PublicKey.__new__", "bitforge/pubkey.py:PublicKey.from_private_key", "bitforge/pubkey.py:PublicKey.to_address", "bitforge/address.py:Address.__new__", "bitforge/address.py:Address.from_public_key", "bitforge/address.py:Address.from_script", "bitforge/hdprivkey.py:HDPrivateKey.__new__", "bitforge/hdprivkey.py:HDPrivateKey.from_seed", "bitforge/hdprivkey.py:HDPrivateKey.derive", "bitforge/hdprivkey.py:HDPrivateKey.to_hd_public_key", "bitforge/hdprivkey.py:HDPrivateKey.to_private_key", "bitforge/hdprivkey.py:HDPrivateKey.to_public_key", "bitforge/hdpubkey.py:HDPublicKey.from_hd_private_key", "bitforge/hdpubkey.py:HDPublicKey.to_public_key", "bitforge/pubkey.py:find_network"]}
{"id": "C126", "title": "What amounts are made and converted to in every case", "statement": "For all integers and floats, finite, infinite or nan: Unit takes the first of satoshis, bits, mbtc and btc that is given, and raises ValueError if none is. The number of satoshis is the argument (an amount in another unit first being rounded to a float and multiplied by 10**2, 10**5 or 10**8 with IEEE rounding) truncated towards zero; nan is a ValueError and infinity an OverflowError. bits, mbtc and btc are the roundings of the rounding of the number of satoshis divided by the scale, and from 2**1024 - 2**970 on there is an OverflowError. from_fiat divides by the rate first, with ZeroDivisionError for a zero rate, and at_rate multiplies, both with the IEEE rules for infinities and nan, in that order of errors.", "quantifier": "every int and every float, as amount and as rate, and every combination of arguments", "why_tests_cant": "all integers and all rational numbers", "anchors": ["bitforge/unit.py:Unit.__init__", "bitforge/unit.py:Unit._set_values", "bitforge/unit.py:Unit.from_fiat", "bitforge/unit.py:Unit.at_rate"]}
{"id": "C127", "title": "What the encoders, decoders and utilities answer in every case", "statement": "For all integers, texts and byte strings of either type. encode_int without a length is the shortest string of the value, 00 for zero and nothing for a negative number; with a length it is the number cut to its width, zero for a negative one. encode_varint is the compact size (cut to 64 bits), and nothing for a negative number; read_varint reads every compact size and consumes the marker even when the number is missing. decode_hex, a2b_base58, a2b_hashed_base58, decode_base58h, the WIF and the address functions of utils answer with the value, with the error of their kind, or with the UnicodeError of text outside ASCII; the validity functions raise ValueError for a payload shorter than 33 bytes and UnicodeDecodeError for a version from 128 on. decode_script_number checks the limit, then the type, then minimality. sec_to_public_pair of a first coordinate without a point answers with a pair that is not a point, and refuses a bytearray. to_bytes is the two's complement, and from_bytes never reads signed numbers.", "quantifier": "every integer, every text, every str and bytearray, every length, order, limit, version and list of allowed versions", "why_tests_cant": "all integers and all texts", "anchors": ["bitforge/encoding.py:encode_int", "bitforge/encoding.py:decode_int", "bitforge/encoding.py:encode_varint", "bitforge/encoding.py:encode_hex", "bitforge/encoding.py:decode_hex", "bitforge/encoding.py:encode_base58h", "bitforge/encoding.py:decode_base58h", "bitforge/encoding.py:decode_script_number", "bitforge/encoding.py:encode_script_number", "bitforge/tools.py:Buffer.read", "bitforge/tools.py:Buffer.read_varint", "bitforge/utils/encoding.py:to_long", "bitforge/utils/encoding.py:from_bytes_32", "bitforge/utils/encoding.py:to_bytes_32", "bitforge/utils/encoding.py:sec_to_public_pair", "bitforge/utils/encoding.py:public_pair_to_sec", "bitforge/utils/encoding.py:is_sec_compressed", "bitforge/utils/encoding.py:is_valid_wif", "bitforge/utils/encoding.py:wif_to_secret_exponent", "bitforge/utils/encoding.py:is_valid_bitcoin_address", "bitforge/utils/encoding.py:bitcoin_address_to_hash160_sec", "bitforge/utils/encoding.py:public_pair_to_bitcoin_address", "bitforge/utils/intbytes.py:to_bytes", "bitforge/utils/intbytes.py:from_bytes", "bitforge/utils/intbytes.py:int_to_bytes", "bitforge/utils/intbytes.py:int_from_bytes", "bitforge/utils/encoding.py:is_hashed_base58_valid", "bitforge/utils/encoding.py:public_pair_to_hash160_sec", "bitforge/utils/encoding.py:hash160_sec_to_bitcoin_address", "bitforge/utils/encoding.py:bitcoin_address_to_hash160_sec_with_prefix", "bitforge/utils/encoding.py:wif_to_tuple_of_prefix_secret_exponent_compressed"]}
{"id": "C128", "title": "What ECDSA over secp256k1 answers in every case", "statement": "The public pair of an integer d is the pair of coordinates in [0, p) of d*G, and (None, None) exactly when d*G is zero. public_pair_for_x is the point of that abscissa and parity, or y = 0 or p when the abscissa has no point. sign answers with (r, s), where r is the abscissa of k*G for the nonce k and s*k = z + d*r modulo n, and with RuntimeError exactly when z + d*r is zero modulo n (r is never zero), unless the search for the nonce does not end. verify answers False for components out of [1, n-1], else NoSuchPointError for a pair off the curve, else TypeError when z*G + r*Q is zero, else whether the signature is valid; a key given with an abscissa out of [0, p) makes it raise AssertionError when r = -2s modulo n, or when r = s and z*G is r*Q or its opposite, and compare that abscissa itself modulo n when r = s and z*G is zero. Recovery answers AssertionError when r is zero modulo n, NoSuchPointError when r is not an abscissa, no key for a signature out of range (or AssertionError, when r is out of [0, p) and the computation meets the nonce point itself), TypeError when a candidate is zero, and else exactly the two keys Q with r*Q = s*T - z*G for a point T of abscissa r.", "quantifier": "every secret exponent, value, pair, r and s (any integers), every hash function", "why_tests_cant": "points where the sum is zero or s vanishes cannot be found by sampling", "anchors": ["bitforge/utils/ecdsa.py:sign", "bitforge/utils/ecdsa.py:public_pair_for_secret_exponent", "bitforge/utils/ecdsa.py:public_pair_for_x", "bitforge/utils/ecdsa.py:is_public_pair_valid", "bitforge/utils/ecdsa.py:verify", "bitforge/utils/ecdsa.py:possible_public_pairs_for_signature"]}
{"id": "C129", "title": "What scripts are made from, classified as and asked for, in every case", "statement": "For every list of instructions the class that classify and create give is that of the one template that its shape matches, and Script if there is none; it is an AttributeError instead if none of the five templates before multisig matches, and four or more instructions begin with a push, or begin with a number and push just before the last one. is_valid of each template says whether the shape matches, and only that of the multisig template fails, on exactly those shapes. Script.from_bytes gives the script of the instructions one after the other, with bytearrays, or InsufficientData with the length at which the first of them is cut off; Script.from_string the script of the instructions that the words spell, with strs, or the error of the first words that spell none; Script.compile that of the instructions that the elements stand for, or the error of the first element that stands for none. get_signature, get_address_hash, get_script_hash and get_data answer with the data of their one instruction whatever it is and with IndexError where there is none; get_public_key and get_public_keys with the main network keys that are pushed as str, get_min_signatures with the number of the first opcode, get_script with what the last data are read as, get_signatures with the data between the first and the last instruction; push_data and remove_opcode_by_data always raise.", "quantifier": "every list of instructions, byte string, text and schematic; every script of any class, whether or not its instructions match", "why_tests_cant": "the failures depend on the shape of the whole script and on the class that was declared for it; all lengths and all places of the first failure are covered", "anchors": ["bitforge/script/script.py:Script.classify", "bitforge/script/script.py:Script.create", "bitforge/script/script.py:Script.from_bytes", "bitforge/script/script.py:Script.from_string", "bitforge/script/script.py:Script.compile", "bitforge/script/script.py:Script.push_data", "bitforge/script/script.py:Script.remove_opcode_by_data", "bitforge/script/script.py:PayToPubkeyIn.is_valid", "bitforge/script/script.py:PayToPubkeyIn.get_public_key", "bitforge/script/script.py:PayToPubkeyIn.get_signature", "bitforge/script/script.py:PayToPubkeyOut.get_address_hash", "bitforge/script/script.py:PayToScriptIn.get_script", "bitforge/script/script.py:PayToScriptIn.get_signatures", "bitforge/script/script.py:PayToScriptOut.get_script_hash", "bitforge/script/script.py:OpReturnOut.get_data", "bitforge/script/script.py:RedeemMultisig.is_valid", "bitforge/script/script.py:RedeemMultisig.get_min_signatures", "bitforge/script/script.py:RedeemMultisig.get_public_keys", "bitforge/script/script.py:Script.get_structure", "bitforge/script/script.py:PayToPubkeyOut.is_valid", "bitforge/script/script.py:PayToScriptIn.is_valid", "bitforge/script/script.py:PayToScriptOut.is_valid", "bitforge/script/script.py:OpReturnOut.is_valid", "bitforge/script/script.py:Script.__new__", "bitforge/script/script.py:to_instructions"]}
{"id": "C130", "title": "What inputs, outputs and transactions are made and read as, in every case", "statement": "Output.create re-classifies the instructions of its script and gives an output of the class that pays to it; Input.create does the same and gives an input of the class that spends from it, or NameError where the script spends nothing. Transaction.__new__, and replace_inputs, raise the exception of the first of five checks that fails (no inputs, something not an input, no outputs, something not an output, lock time outside 0..2**32-1) and otherwise give a transaction of exactly its arguments. Input.from_buffer and Output.from_buffer give an object exactly for the buffers that begin with its form (any of the four lengths of a count), the one with those fields, and leave exactly what follows; from_bytes gives the same object and drops what follows, Transaction.from_bytes likewise with every input of class Input and every output of the class of its script; all other byte strings raise the exception of the first field that is wrong. from_hex of the three raises UnicodeEncodeError for text that is not ASCII, InvalidHex for an odd length or another character, and otherwise does what from_bytes does with the bytes.", "quantifier": "every script of any declared class, every list of arguments, every integer, every byte string, every text and every class of inputs", "why_tests_cant": "all byte strings of all lengths, with all scripts, counts and tails; samples cannot show that no other buffer is read and that every field of the object is as written", "anchors": ["bitforge/transaction/input.py:Input.create", "bitforge/transaction/input.py:Input.replace_script", "bitforge/transaction/input.py:Input.remove_script", "bitforge/transaction/input.py:Input.from_buffer", "bitforge/transaction/input.py:Input.from_bytes", "bitforge/transaction/input.py:Input.from_hex", "bitforge/transaction/output.py:Output.create", "bitforge/transaction/output.py:Output.from_buffer", "bitforge/transaction/output.py:Output.from_bytes", "bitforge/transaction/output.py:Output.from_hex", "bitforge/transaction/transaction.py:Transaction.__new__", "bitforge/transaction/transaction.py:Transaction.replace_inputs", "bitforge/transaction/transaction.py:Transaction.from_bytes", "bitforge/transaction/transaction.py:Transaction.from_hex", "bitforge/transaction/input.py:Input.__new__", "bitforge/transaction/output.py:Output.__new__"]}
{"id": "C131", "title": "What the number theory answers for all integers", "statement": "inverse_mod raises ZeroDivisionError for the modulus 0, AssertionError for every negative modulus and for every positive one that has a divisor above 1 in common with the number, and otherwise returns the inverse in 1..m; it always ends. legendre_symbol raises TypeError for every modulus that is not positive, and otherwise returns -1 if the power of the number to half of p-1 is -1 modulo p (always for p = 1 and 2), and that power's residue if not; for odd primes it is 0 for the multiples, 1 for the other squares and -1 for the rest. modular_sqrt raises TypeError for moduli that are not positive, returns 0 for the moduli 1 and 2 and wherever the symbol is not 1, a square root for every modulus that is 3 modulo 4, prime or not, where it is 1, the number itself for even moduli, and never ends exactly if the modulus is not 3 modulo 4 and nothing has the symbol -1; for every odd prime it returns a square root, or 0 if there is none.", "quantifier": "all integers as number and modulus; the value returned is left open only for moduli that are 1 modulo 4 and not prime, where the function is shown to end", "why_tests_cant": "all pairs of integers, of either sign and any size, and non-termination", "anchors": ["bitforge/utils/numbertheory.py:inverse_mod", "bitforge/utils/numbertheory.py:legendre_symbol", "bitforge/utils/numbertheory.py:modular_sqrt"]}
{"id": "C132", "title": "When point arithmetic fails, exactly", "statement": "Making a point raises NoSuchPointError exactly if the coordinates are not those of a point of the curve. Doubling raises AssertionError exactly on the points of order two. Multiplying by e, first reduced by the declared order if there is one, raises AssertionError exactly if the reduced multiplier is negative and the point is not infinity, or if for some t >= 2 the multiple of the point by 3e/2^t - e/2^t (integer division) has order two; in all other cases it returns the group's multiple, and no other error occurs.", "quantifier": "every prime p > 3, every non-singular curve, every point with 0 <= x < p, every integer multiplier, every declared order", "why_tests_cant": "all curves, points and multipliers; the failing multipliers depend on every bit of the multiplier", "anchors": ["bitforge/utils/ellipticcurve.py:Point.__init__", "bitforge/utils/ellipticcurve.py:Point.double", "bitforge/utils/ellipticcurve.py:Point.__mul__", "bitforge/utils/ellipticcurve.py:CurveFp.contains_point", "bitforge/utils/ellipticcurve.py:Point.__rmul__"]}
{"id": "C133", "title": "What printing, comparing and hashing answer in every case", "statement": "repr of an opcode is its number and name, or the size of a direct push; of an instruction its name and, for a push, the bytes in hexadecimal; of a script the tuple of these, with a comma after a single one. It raises KeyError exactly at the first opcode without a name and TypeError at the first push without data. == holds exactly for instructions with the same opcode and bytes, scripts with the same instructions, inputs, outputs and transactions with the same fields, whatever the classes and the kinds of the bytes. hash is that of the tuple of the fields, in order, and raises TypeError exactly if some data is a bytearray. to_uri raises UnicodeEncodeError exactly if a name or text to be shown has a character that is not ASCII, and nothing else for URIs that the library made.", "quantifier": "every opcode, instruction, script, input, output and transaction, however made; every hash of the built-in values; every URI made from a text or a dictionary", "why_tests_cant": "all objects, including those that no constructor makes", "anchors": ["bitforge/script/opcode.py:Opcode.__repr__", "bitforge/script/instruction.py:Instruction.__repr__", "bitforge/script/instruction.py:Instruction.__eq__", "bitforge/script/instruction.py:Instruction.__hash__", "bitforge/script/script.py:Script.__repr__", "bitforge/uri.py:URI.to_uri", "bitforge/uri.py:URI.__repr__"]}
{"id": "C134", "title": "Nothing is accepted as two different things", "statement": "No byte string, and no hexadecimal text, is accepted as two of a private key, a public key, an address and a transaction. No text is accepted both as the hexadecimal form of a key or an address and as an address or key in base 58, nor both as a script in words and as an address or key in base 58.", "quantifier": "every byte string and every text, every network", "why_tests_cant": "the tests feed each reader its own samples; a confusion needs bytes that two readers accept, among all strings of all lengths", "anchors": ["bitforge/privkey.py:PrivateKey.from_bytes", "bitforge/privkey.py:PrivateKey.from_hex", "bitforge/pubkey.py:PublicKey.from_bytes", "bitforge/pubkey.py:PublicKey.from_hex", "bitforge/address.py:Address.from_bytes", "bitforge/address.py:Address.from_hex", "bitforge/transaction/transaction.py:Transaction.from_bytes", "bitforge/script/script.py:Script.from_string"]}
{"id": "C135", "title": "What is read, written and read again is the same", "statement": "If a reader accepts a text or byte string and the object can be written, then what is written is read as the very same object, class and kinds included. Scripts in bytes, private keys and addresses are written as what was read. Transactions, inputs, outputs, public keys and scripts in words settle after one round, however they were spelt and whatever followed them. URIs do too.", "quantifier": "every byte string and text, every network, every input class; every number of rounds", "why_tests_cant": "the tests write and read back a few objects that they made; the statement is about all accepted spellings and about repetition", "anchors": ["bitforge/transaction/transaction.py:Transaction.from_bytes", "bitforge/transaction/transaction.py:Transaction.to_bytes", "bitforge/transaction/input.py:Input.from_bytes", "bitforge/transaction/output.py:Output.from_bytes", "bitforge/script/script.py:Script.from_string", "bitforge/script/script.py:Script.to_string", "bitforge/pubkey.py:PublicKey.to_bytes", "bitforge/uri.py:URI.to_uri", "bitforge/unit.py:Unit.__init__"]}
{"id": "C136", "title": "Point arithmetic with coordinates that are not reduced", "statement": "Point accepts any integers that satisfy the equation modulo p. Whatever the representatives: doubling gives the double and fails exactly on the points of order two; a sum stands for the sum of the points and fails with AssertionError exactly if the abscissas are different integers and the same modulo p; a multiple stands for the multiple of the point and fails with AssertionError exactly if the multiplier is negative, a point of order two is to be doubled on the way, or the point or its opposite is to be added to itself or its opposite on the way.", "quantifier": "every regular curve over a prime field, every pair of integer coordinates, every declared order, every multiplier", "why_tests_cant": "the tests use reduced coordinates of secp256k1 points only; the failures depend on the bits of the multiplier and on the order of the point", "anchors": ["bitforge/utils/ellipticcurve.py:Point.__init__", "bitforge/utils/ellipticcurve.py:Point.double", "bitforge/utils/ellipticcurve.py:Point.__mul__", "bitforge/utils/ellipticcurve.py:CurveFp.contains_point", "bitforge/utils/ellipticcurve.py:Point.__add__", "bitforge/utils/ellipticcurve.py:Point.__rmul__"]}
{"id": "C137", "title": "The representation of a curve or a point determines it", "statement": "repr of a curve is CurveFp(p,a,b) and that of a point Point(curve,x,y,order), with the numbers in decimal (and an L if they are long) and None for what is missing; no text is the representation of two curves with different parameters, or of two points with different parameters, coordinates or orders. The message of NoSuchPointError tells the same of the refused coordinates and the curve.", "quantifier": "every curve, every point including INFINITY and incomplete ones, every choice of int or long for the numbers", "why_tests_cant": "injectivity of a text format is about all pairs of objects", "anchors": ["bitforge/utils/ellipticcurve.py:CurveFp.__repr__", "bitforge/utils/ellipticcurve.py:Point.__repr__", "bitforge/utils/ellipticcurve.py:CurveFp.__str__", "bitforge/utils/ellipticcurve.py:Point.__init__"]}
{"id": "C138", "title": "Signed inputs and their signature operations are relayed by the reference client", "statement": "A signed AddressInput, ScriptInput or MultisigInput passes AreInputsStandard of version 0.11 of the reference client when it spends what it was made for: its script leaves as many elements as the form of the output expects, and a script without a form has at most fifteen signature operations. The transactions have at most 4000 signature operations, as counted by the reference client.", "quantifier": "every transaction and input that was signed, in whatever order, with whatever keys; every script that is spent; every payment of the examples", "why_tests_cant": "the numbers of keys, signatures, inputs and outputs are unbounded, and the count depends on every instruction of every script", "anchors": ["bitforge/transaction/input.py:AddressInput.sign", "bitforge/transaction/input.py:ScriptInput.sign", "bitforge/transaction/input.py:MultisigInput.create", "bitforge/transaction/output.py:MultisigOutput.create", "bitforge/transaction/output.py:ScriptOutput.create"]}
{"id": "C139", "title": "Transactions that the reference client relays can be read", "statement": "Transaction.from_bytes and from_hex accept every transaction that passes CheckTransaction, IsStandardTx and AreInputsStandard of version 0.11 of the reference client, and the result shows its inputs and outputs.", "quantifier": "every transaction, made by whatever program, that the reference client relays; every bytes that follow", "why_tests_cant": "the transactions of other programs are unboundedly many, and those that fail are told apart by the sequence of opcodes of one input", "anchors": ["bitforge/transaction/transaction.py:Transaction.from_bytes", "bitforge/transaction/transaction.py:Transaction.from_hex", "bitforge/transaction/input.py:Input.from_buffer", "bitforge/transaction/output.py:Output.from_buffer", "bitforge/script/script.py:Script.classify"]}
{"id": "C140", "title": "A transaction can be handed from signer to signer", "statement": "A transaction that is written by one signer and read by the next can be signed by the next as if it had never been written: sign raises the same error or makes an equal transaction, with the same bytes and id. So several owners who hand the bytes around make the transaction that one program with all the keys makes. can_sign tells the next signer what it told the one before.", "quantifier": "every transaction, every sequence of signers of any length, any keys, types and indices counted from 0", "why_tests_cant": "the sequences of signers and the transactions that are handed on between them are unbounded", "anchors": ["bitforge/transaction/transaction.py:Transaction.from_bytes", "bitforge/transaction/transaction.py:Transaction.sign", "bitforge/transaction/transaction.py:Transaction.replace_inputs", "bitforge/transaction/input.py:Input.from_buffer", "bitforge/transaction/input.py:AddressInput.sign", "bitforge/transaction/input.py:ScriptInput.sign", "bitforge/transaction/input.py:AddressInput.can_sign", "bitforge/transaction/input.py:MultisigInput.can_sign"]}
{"id": "C141", "title": "The networks are kept apart", "statement": "Whatever is made from a key, address or extended key of one network belongs to the same network: public keys, addresses, keys of extended keys and their descendants, and what is read from a form in which the object was written. No transaction mixes addresses of both networks, and a key signs only for addresses and scripts of its own network, for which can_sign says so.", "quantifier": "every key, address and extended key of a known network, every sequence of steps of any length, every transaction", "why_tests_cant": "the objects and the sequences of steps are unbounded", "anchors": ["bitforge/privkey.py:PrivateKey.to_public_key", "bitforge/privkey.py:PrivateKey.from_wif", "bitforge/privkey.py:PrivateKey.from_bytes", "bitforge/pubkey.py:PublicKey.to_address", "bitforge/pubkey.py:PublicKey.from_bytes", "bitforge/address.py:Address.from_bytes", "bitforge/hdprivkey.py:HDPrivateKey.__new__", "bitforge/hdpubkey.py:HDPublicKey.derive", "bitforge/transaction/output.py:AddressOutput.create", "bitforge/transaction/input.py:AddressInput.sign", "bitforge/transaction/input.py:MultisigInput.can_sign"]}
{"id": "C142", "title": "A program finds the money that was paid to it", "statement": "Among the outputs of a transaction that was read, those of class AddressOutput whose script gives the hash of a key are exactly the ones that the reference client takes for payments to that key, at the same positions and with the same sum; those of class ScriptOutput whose script gives the hash of a script are exactly the ones that it takes for payments to that script. What is found for an address can be spent with an AddressInput of that address, which signs the script of the payment.", "quantifier": "every byte string that is read as a transaction, every hash, every output and every address", "why_tests_cant": "transactions, scripts and amounts are unbounded, and the hash may be pushed by several opcodes", "anchors": ["bitforge/transaction/output.py:Output.create", "bitforge/transaction/output.py:Output.from_buffer", "bitforge/transaction/transaction.py:Transaction.from_bytes", "bitforge/script/script.py:Script.classify", "bitforge/script/script.py:PayToPubkeyOut.get_address_hash", "bitforge/script/script.py:PayToScriptOut.get_script_hash", "bitforge/transaction/input.py:AddressInput.create"]}
{"id": "C143", "title": "Money paid to a key of a watching wallet can be spent by the owner", "statement": "Let a public key be derived from an extended public key along any path. What is paid to the address of the derived key is found by who watches for it, and for no key of another point unless the bytes of the two keys collide. The owner of the extended private key derives with the same calls the only secret of that address, can_sign is true of it, and the input that it signs is accepted by the reference client for the script of the payment. Different child numbers give different addresses.", "quantifier": "every extended public key, every secret, every path of any length, every hash function, transaction, nonce and set of verification flags", "why_tests_cant": "paths, keys and transactions are unbounded, and the secret is found by the arithmetic of the curve", "anchors": ["bitforge/hdpubkey.py:HDPublicKey.derive", "bitforge/hdprivkey.py:HDPrivateKey.derive", "bitforge/privkey.py:PrivateKey.to_address", "bitforge/pubkey.py:PublicKey.to_address", "bitforge/transaction/input.py:AddressInput.create", "bitforge/transaction/input.py:AddressInput.can_sign", "bitforge/transaction/input.py:AddressInput.sign"]}
{"id": "C144", "title": "Who has spent a payment can be told from the transaction", "statement": "Let an input be accepted by the reference client, under the rules of nodes, for a payment to the hash of a key. Its script can be read and is of class PayToPubkeyIn. get_signature gives the signature that was checked, and get_public_key gives the key that has signed, on the network of the spender, whose address is the one that was paid to.", "quantifier": "every hash function, every set of verification flags that has the rules of nodes, every transaction, input index and hash of twenty bytes", "why_tests_cant": "transactions and keys are unbounded, and the form of all accepted scripts is needed, not only of those that the library makes", "anchors": ["bitforge/script/script.py:PayToPubkeyIn.get_public_key", "bitforge/script/script.py:PayToPubkeyIn.get_signature", "bitforge/script/script.py:PayToPubkeyIn.is_valid", "bitforge/script/script.py:Script.classify", "bitforge/transaction/input.py:Input.from_buffer", "bitforge/pubkey.py:PublicKey.from_bytes", "bitforge/pubkey.py:PublicKey.to_address"]}
{"id": "C145", "title": "Who has signed for a multisig payment can be told from the transaction", "statement": "Let an input be accepted by the reference client, under the rules of nodes, for the ScriptOutput of a multisig script that needs one signature or more. Unless the script that the input shows collides with the multisig script, the input can be read and is of class PayToScriptIn. get_signatures gives as many signatures as are needed, by some of the keys in their order. get_script gives the multisig script, of class RedeemMultisig, which gives the number of signatures and the keys. An input that spends a MultisigOutput, which pays to the multisig script directly, is not taken for one that shows a script.", "quantifier": "every hash function, every set of verification flags that has the rules of nodes, every list of at most sixteen keys, every threshold, transaction and input index", "why_tests_cant": "transactions, keys and thresholds are unbounded, and the form of all accepted scripts is needed, not only of those that the library makes", "anchors": ["bitforge/script/script.py:PayToScriptIn.get_script", "bitforge/script/script.py:PayToScriptIn.get_signatures", "bitforge/script/script.py:PayToScriptIn.is_valid", "bitforge/script/script.py:RedeemMultisig.get_public_keys", "bitforge/script/script.py:RedeemMultisig.get_min_signatures", "bitforge/script/script.py:RedeemMultisig.is_valid", "bitforge/script/script.py:Script.classify"]}
{"id": "C146", "title": "Data published in an output can be read from the transaction", "statement": "Among the outputs that were read, those of class DataOutput whose script gives some data are exactly the ones that are OP_RETURN and one push of these data, and they give no other data. What DataOutput writes is found by who reads it. The reference client accepts no input for such an output. The outputs found are those that the reference client takes for data, and those that DataOutput can make.", "quantifier": "every output, every byte string, every set of verification flags and every transaction", "why_tests_cant": "outputs and data are unbounded, and that no input is accepted is a claim about all transactions", "anchors": ["bitforge/script/script.py:OpReturnOut.get_data", "bitforge/script/script.py:OpReturnOut.is_valid", "bitforge/script/script.py:OpReturnOut.create", "bitforge/transaction/output.py:DataOutput.create", "bitforge/transaction/output.py:Output.create", "bitforge/transaction/output.py:Output.from_buffer", "bitforge/script/script.py:Script.classify"]}
