# Formal model of bitforge: design

`properties.jsonl` lists the properties (C01 …).  `lean/` is a Lake project that
models `/repo/bitforge` in Lean 4 and proves them.  `MANIFEST.json` maps each
property to theorem names and a status (`tools/manifest.py` writes it from the
theorem names in `lean/Verif/Props` and the notes in `tools/notes.json`).
`seeded/LOG.jsonl` records the seeded faults: one edit of a definition of the
model per line, and the theorems that no longer go through.

## The runtime

The source tries to run on both CPython 2.7 and 3.x, but the transaction and
script layers only work on 2.7 (`encode_varint` uses the builtin `chr`,
`Input.from_buffer` uses `str(buffer)`, the interpreter indexes `str`, …).
**The modelled runtime is 64-bit CPython 2.7.**  Divergences on Python 3 are
listed at the end of this file.

* A Python function is a total Lean function.  An exception is a *value*:
  `Except Err α`, where `Err` has one constructor per exception class the code
  raises (`Verif/Py.lean`).  Built-in failures that the code provokes by mistake
  (`AttributeError`, `TypeError`, …) are constructors too, so a function that
  always crashes is modelled as one that always returns `error`.
* Bytes are `List Byte` with `Byte := Fin 256`; text is `List Char`;
  unbounded Python integers are `Int` or `Nat`.
* Where the code distinguishes `str` (immutable bytes) from `bytearray`, the
  value carries its kind (`Data`).  Python 2's `str` elements are not integers,
  which makes several operations raise `TypeError`.
* Mixing `unicode` literals (`unicode_literals` is imported everywhere) with
  non-ASCII `str` objects raises `UnicodeDecodeError`; this is modelled where it
  happens (`HDPrivateKey.to_string`, error messages, …).
* A loop takes fuel where structural recursion is not available; the fuel is
  proved to suffice (C21, C22, C45, …), except for the rejection loop of
  `deterministic_generate_k`, whose termination depends on the hash function.
* Floats are IEEE 754 binary64 on rational numbers with infinities and NaN,
  rounding to nearest even (`Verif/Float64.lean`).

## Parameters (assumptions made by quantification, not by axioms)

* SHA-256, SHA-1, RIPEMD-160, HMAC-SHA256, HMAC-SHA512 are *parameters*
  (`Hashes`): every theorem quantifies over all functions with the right output
  lengths.  Nothing about collision resistance is assumed.  `Hashes.toy` is used
  in examples; the refutations hold for every family, or are stated for
  `Hashes.real`, the real hash functions (`Verif/RealHashes.lean`), except those of C24 and C62,
  which need a nonce nobody knows.
* Randomness: the nonces of the external signer are parameters.  In the
  transaction layer the signer itself is an oracle (`Signer`), so that its
  theorems hold for every signer; C74 instantiates it with the modelled
  `PrivateKey.sign`.

## What is modelled

| model | code |
|-------|------|
| `Encoding.lean` | `bitforge/encoding.py` (all), `utils/encoding.py:1-174` and `tools.py` (`Buffer`) |
| `UtilsEncoding.lean` | `utils/encoding.py:177-304`: WIF and address helper functions |
| `Unicode.lean` | no code of the library: the digits and spaces of Unicode 5.2, `unicode.isdigit`, `int` and `float` of non-ASCII texts in CPython 2.7 |
| `Networks.lean` | `networks.py` (all) |
| `PrivKey.lean`, `PubKey.lean`, `Address.lean` | `privkey.py`, `pubkey.py`, `address.py` |
| `NumberTheory.lean`, `NumberTheoryZ.lean` (integer moduli), `Curve.lean`, `Ecdsa.lean` | `utils/numbertheory.py`, `utils/ellipticcurve.py` (to line 190), `utils/ecdsa.py`, `utils/secp256k1.py` |
| `CurveObj.lean` | `utils/ellipticcurve.py` (to line 194) with the curve of each point |
| `Payment.lean` | `examples/example_pubkey.py`, `examples/example_serial.py`, the payments of `README.md` |
| `IntBytes.lean` | `utils/intbytes.py` (Python 2 branch) |
| `KeySign.lean` | `PrivateKey.sign` and `verify`, with the functions of the external package `ecdsa` 0.13 that they reach |
| `Opcode.lean`, `Instruction.lean`, `Script.lean` | `script/opcode.py`, `script/instruction.py`, `script/script.py` |
| `Interpreter.lean` | `script/interpreter.py` |
| `Input.lean`, `Output.lean`, `Transaction.lean` | `transaction/*.py` |
| `Signature.lean` | `signature.py` |
| `HdKey.lean` | `hdprivkey.py`, `hdpubkey.py` |
| `Float64.lean`, `Unit.lean` | Python floats; `unit.py` |
| `Compare.lean`, `Repr.lean` | comparison operators and hashes; `__repr__` and `__str__` of all classes but `CurveFp` and `Point` (their `__str__` is in `CurveObj.lean`, their `__repr__` in `CurveRepr.lean`) |
| `Message.lean` | `errors.py`, the messages of the exceptions raised by the functions above |
| `Url.lean`, `FloatText.lean`, `Uri.lean` | the parts of CPython 2.7.9's `urlparse`, `urllib`, `float(text)` and `str(float)` that `uri.py` uses; `uri.py` |

Every definition cites the lines it models.  `Verif/Spec/` has the
specifications, which do not use the model (positional notation, Base58Check,
BIP 32/66 formats, wire formats, templates, stack effects, a table of opcodes
written from the protocol, Mathlib's elliptic curve group, nearest binary64
numbers, decimal literals, RFC 6979, the script evaluation, signature hash and
signature checks of the reference client).  `Verif/Proofs/` has lemmas; `Verif/Props/` has the
property theorems, with an `example` beside each; `Props/Instances.lean` applies the theorems about
transactions to signed transactions with the real hash functions.

### Not modelled

* The messages of exceptions of the runtime and of the external package, and
  of what `AddressInput.sign` calls (the self-test of `ellipticcurve.py` is in `Conformance.lean`).
* Memory and time: `range(n)` is only limited by `n < 2^63`; strings are
  unbounded.
* Arguments of types the functions are not meant for (floats as amounts or
  secrets, elements of tuples in schematics other than opcodes, integers, bytes and None,
  objects that imitate others), except where the code checks for them (`Transaction`, `URI`).
* Interpreter: `tx` and `nin` of `verify` (only read by unreachable code); flags
  are naturals.
* The sign of a floating-point zero; the clipping of exponents beyond 19999 when a
  text of some 20000 digits is read as a float; texts under `amount` in a dictionary given to `URI`;
  `Decimal` amounts.
* The NFKC check of network locations that CPython 2.7.17 added to `urlsplit`.
* The DNS seeds of the networks.

## Findings: properties that are false of the code

Each has a `_refuted` theorem with a witness (or for all inputs) and `_partial`
theorems for what is left.

| id | what is wrong |
|----|---------------|
| C08, C50 | `decode_script_number` tests `len >= size`: numbers of 4 bytes are refused |
| C19 | `sec_to_public_pair` ignores trailing bytes and accepts coordinates `>= p` |
| C23 | `double` raises AssertionError on points of order 2 |
| C24, C62 | `ecdsa.sign` does not reduce `r` modulo `n`; recovery fails for `r >= n` and raises if the key is at infinity |
| C28, C29, C34, C41, C43, C45 | an instruction with a PUSHDATA opcode cannot be serialised (TypeError); so long redeem scripts, 2-of-3 multisig and 76 to 80 bytes of data fail |
| C28, C30, C31, C34 | some shapes, such as four pushes, make `RedeemMultisig.is_valid` raise AttributeError, so that they cannot be parsed |
| C32 | templates with no signatures or keys are not recognised; `get_public_key` on parsed scripts raises |
| C36 | trailing bytes and non-minimal counts are accepted |
| C40 | signing with a negative index returns the transaction unsigned |
| C42 | duplicate keys can "sign" a multisig input; test-network keys cannot |
| C43 | script addresses get a pay-to-pubkey-hash script; `MultisigOutput` is the bare redeem script |
| C44 | `get_id` is not byte-reversed, so that an input made from it refers to another transaction |
| C45, C52 | with SCRIPT_VERIFY_P2SH nothing is accepted (AttributeError); OP_HASH160 always raises, so no pay-to-pubkey-hash output can be spent |
| C49, C50 | OP_DROP drops two elements; OP_ABS gives 1; `str` operands raise |
| C51 | anything that starts with a zero byte is false |
| C57, C58 | `to_string` of extended keys raises for both networks; private derivation raises; the child does not depend on the index |
| C59, C60 | a trip through bitcoins loses a satoshi for some amounts (3 satoshis, 0.29 bitcoin) |
| C60 | `is_valid` raises OverflowError for `amount=inf`, accepts every scheme; amounts above 12 digits change; blank extras vanish; numbers come back as texts; non-ASCII texts raise; an all-digit address without query does not come back; a dictionary without address raises AttributeError |
| C63, C70 | `PrivateKey.verify` hashes its message again (SHA-1), never returns False, and accepts padded integers, long lengths and texts that are cut short |
| C67 | amounts below 10000 satoshis are written with an exponent |
| C71 | OP_RESERVED counts as a push (as in the reference client) |
| C72, C73 | `is_minimal_push` raises for most data of 1 to 75 bytes and accepts an empty PUSHDATA; `push_data` and `remove_opcode_by_data` always raise |
| C75 | `Input.create` raises NameError for every script that is not one of its two templates but can be classified |
| C76 | `wif_to_secret_exponent` takes any suffix for the mark of compression, accepts secrets out of range, and `is_valid_wif` raises ValueError for short payloads |
| C77 | `is_valid_bitcoin_address` is False for script addresses of the main network and raises UnicodeDecodeError for those of the test network |
| C78 | `deterministic_generate_k` tests `val > n` where RFC 6979 reduces modulo `n`: another nonce for the digest `n` |
| C79 | `from_bytes` with `signed` always raises; a `bytearray` is a TypeError |
| C80 | `verify` accepts scripts that the reference client refuses (OP_DROP, OP_ABS, OP_IF, OP_NOTIF and OP_IFDUP on 256, more than 1000 elements in between), and refuses scripts that it accepts |
| C81 | `!=` of opcodes compares identities (no `__ne__`); parsed scripts that push data, networks, addresses and keys have no hash |
| C82 | opcodes without a name, and scripts with them, cannot be printed; printing a private key shows the secret, but not whether it is compressed |
| C84 | keys given in another order than the public keys pass `can_sign`, but the reference client refuses the signatures |
| C85 | `sigtype` is only appended: with SIGHASH_NONE, SINGLE or ANYONECANPAY all inputs and outputs are hashed all the same, and the reference client refuses the signature |
| C87 | (proved) but OP_CHECKLOCKTIMEVERIFY reports every non-negative lock time as not reached: `check_lock_time` returns None |
| C88 | texts that are not ASCII raise UnicodeDecodeError or UnicodeEncodeError; a text that is not Base58Check makes extended keys raise an `EncodingError` that is no BitforgeError; scripts that trip the classifier raise AttributeError; a count of 2^63 inputs raises OverflowError |
| C90 | `NotAnOutput` says that Inputs are expected; `str(e)` fails for an unknown network whose name is not ASCII; `InvalidCompressionByte` shows the private key; opcodes without a name make the message fail with KeyError |
| C91 | the declared order of a point is not checked; unreduced coordinates are accepted and computed (multiples without a declared order), so that equal points differ; `!=` and `hash` go by identity, and so does the comparison of curves |
| C93 | `compile` refuses the empty byte string, which OP_0 pushes, and raises AttributeError for the shapes of C28 |
| C94 | `MultisigOutput` pays to the bare script, `MultisigInput` pushes the script after the signatures: the two do not go together, whatever the flags |
| C98 | `verify` and `PrivateKey.verify` accept `n - s` for every `s` they accept, so anyone can change a signed transaction and its identifier; only `PrivateKey.sign` restricts itself to small `s` |
| C99 | `sign` of a value above the order and of the same value plus 2^256 takes one nonce, and the two signatures reveal the key |
| C100 | `OP_DROP` on one element leaves what is below untouched only if nothing is below |
| C102 | (proved) the limit of 1000 elements is looked at only when a script has ended: on the way there can be 1603 |
| C107 | every signature `(r, s)` of `z` by `d` is also one of the digest `-z - 2rd` modulo `n` (the opposite point has the same x): harmless, since nobody can aim a hash at it, but it is why a signature alone does not determine its digest |
| C88 (C108) | `isdigit` accepts digits that `int` does not: a script text with `²` for a size raises ValueError, with `①` UnicodeEncodeError |
| C110 | `URI` accepts unknown `req-` parameters and negative amounts, reads UTF-8 escapes as Latin-1, cuts labels at semicolons, turns `+` into a space, and reads 0.29 bitcoins as 28999999 satoshis |
| C111 | `derive` uses the index of the parent instead of the child number, so that `k.derive(i).derive(j)` is the key at `index(k)/i`; a left half of the HMAC at or above the group order is not refused |
| C112 | `Transaction` checks neither repeated inputs nor amounts: such transactions are signed and the reference client refuses them |
| C113 | `MultisigOutput` is a bare multisignature, relayed up to three keys only; more required keys than keys are accepted and the money is lost; dust is not refused; an input with a long script or many signatures is signed, and not relayed beyond 1650 bytes |
| C114 | inputs are final by default, so that `lock_time` has no effect unless `seq_number` is given |
| C115 | a request for the address of a script is paid to a key hash, so that the money is lost; a negative amount pays nothing |
| C116 | an amount converted at a rate and back can lose a satoshi (three satoshis at rate 1), and everything at rates near the smallest `float` |
| C128 | a public key is accepted with any representative of its abscissa modulo `p`, but `verify` then refuses some valid signatures (`r = s`, hash value zero) and fails with AssertionError for others (`r = -2s`, or `r = s` and a nonce that is twice the secret) |
| C134 | the bytes of a transaction of version 2 can be accepted as a public key, which may be followed by anything |
| C135 | the amount of a URI can lose a satoshi each time it is written and read again: 59, 58, 57 |
| C138 | `MultisigOutput` counts as twenty signature operations, so that a transaction with more than two hundred of them is made but not relayed; `MultisigInput.sign` takes more or fewer keys than are needed, and the result is not relayed |
| C139 | a transaction with an input that pushes four times, which the reference client relays and accepts, cannot be read: `from_bytes` raises `AttributeError` |
| C140 | a transaction that was written and read cannot be signed any more, since `from_bytes` forgets the classes of the inputs: the next signer has to be told them and to make the inputs again; even then `MultisigInput.can_sign` raises where it said yes to the signer before, since the keys in a script that was read are of type `bytearray` |
| C141 | the network is lost: keys are read from bytes as keys of the main network, an extended key made with a key of the test network belongs to the main network, transactions mix both networks, and `MultisigInput.can_sign` refuses all keys of the test network |
| C142 | the hash may be pushed by any opcode: an output that pushes the hash of a script by OP_PUSHDATA1 is taken for a payment to the script, though everyone who knows the script can spend it without a signature, and a payment to a key that does is found but spent with another script |
| C143 | a watching wallet gives out one and the same address for all child numbers, and the owner of the extended private key cannot derive the secret with the library |
| C144 | `get_public_key` raises InvalidBinary for every accepted input that was read from a transaction, and for scripts that were made it gives keys of the main network only |
| C145 | `get_public_keys` raises InvalidBinary for every multisig script that was read, so also for the script that `get_script` gives for an accepted input; an input that spends a MultisigOutput with two signatures or more is taken for a PayToScriptIn, and its last signature for a script |
| C146 | OP_RETURN alone or with OP_0 to OP_16 is no DataOutput, though it is data for the reference client; data of more than 80 bytes are read as a DataOutput, which `DataOutput.create` refuses to make |
| C53 | (proved) but vacuous in one direction: since `remove_opcode_by_data` raises, no script that checks a signature ever succeeds |

## How the properties are proved

| id | how |
|----|-----|
| C01–C05 | value function `Σ b_i 256^i`, induction on digits; state-passing reader, induction over request lists |
| C06, C07 | canonical digit lists of positional notation; leading zeros counted |
| C08, C09 | spec: shortest sign-magnitude |
| C10–C16 | finite table of networks; from C01, C05, C07 |
| C17–C19 | `p ≡ 3 (mod 4)` square roots |
| C20, C61 | refinement to Mathlib's group; order of `G` by kernel evaluation of the verified algorithm; the counting bound `#E ≤ 2p+1` gives cofactor 1; primality of `p` and `n` by Pratt certificates |
| C21–C23 | loop invariants, Euler's criterion, Mathlib's group law |
| C24, C25, C62 | algebra in `ZMod n` and the group |
| C26–C32, C68, C71–C73 | case analysis on opcode ranges, induction on instructions, a table of names |
| C33–C44 | parser/serialiser lemmas composed; list update lemmas |
| C45–C54 | state machine; invariants by induction over steps |
| C55, C69, C70 | equivalence with a separate DER grammar |
| C56–C58, C64, C65 | slicing lemmas |
| C74, C75 | composition of C24, C39 and the classification of scripts |
| C76, C77 | Base58Check (C07) and slicing |
| C78 | invariant of the rejection loop against a transcription of RFC 6979 |
| C79 | induction on digits, in both byte orders |
| C80 | simulation: a map from interpreter states to states of the reference client, step by step in both directions; induction over runs |
| C81 | case analysis; congruence over lists |
| C82 | texts cut at a character that does not occur before |
| C83–C85 | C74 composed with evaluation of the standard scripts by the transcription of the reference client; refutations by evaluation with the real hash functions |
| C59, C66, C67, C60 | error bounds of rounding to nearest; lexing lemmas |
| C86 | a sorted list is determined by its elements |
| C87 | a table of reasons, compared with every branch in both directions |
| C88 | a predicate on outcomes, closed under the reader's sequencing; the exact condition for each leak |
| C89 | injectivity of the serialisations (C15, C18, C26, C35, C39) under the hash |
| C90 | message-carrying versions of the functions refine the plain ones; grammar of literals, proved unambiguous whatever follows |
| C91 | refinement of point objects to points of one curve; invariant of the double-and-add loop |
| C92 | invariant (in range, no PUSHDATA, parses) of the loop that signs input after input; composition with C83 |
| C93 | relation between schematic and instructions, functional; induction over the schematic; composition with C32 |
| C94 | well-formedness of compiled scripts, injectivity of the wire format, composition of C74, C84, C92; evaluation of the bare script |
| C95 | a property of readers (consume a part, ask for more when it is cut short) that bind preserves |
| C96 | lengths and leading digits of base-58 numerals from bounds on the number, for each version byte |
| C97 | simulation between two runs that differ in their flags only, opcode by opcode, then induction over the loop |
| C98 | the valid s for one r are the inverses of at most two logarithms up to sign, in a group of prime order; transactions by the specification of C83; under the rules of nodes the input script is read back from the stack it leaves, push by push |
| C99 | two linear congruences in the key; congruence of the bytes fed to the generator |
| C100, C101 | simulation between runs with different bases and different program counters, opcode by opcode; the loop as a fold over instructions |
| C102 | invariant: opcode by opcode, what is added, what is taken away and where elements come from; sums along a run against the limits on operations |
| C103 | lengths of the parts of the serialisation, added up; the bounds on r and s bound the DER of a signature |
| C104 | induction over the calls; C38's lemma that the payload of an input does not depend on the scripts of the others |
| C105 | induction over the chain; C12, C13, C15, C16, C20 for the texts and C92 for a payment |
| C106 | inversion of the run of the reference client over the scripts of the constructors |
| C107 | the points of two digests of one signature are equal or opposite; C39 for the texts; C106 for what an accepted input shows |
| C108 | inversion of the loop word by word; the runs of digits in the Unicode table do not overlap |
| C109 | each function of `urlparse` is proved equal to a relation of the grammar; roundings are unique (ties to even) |
| C110 | the grammar of BIP 21 is contained in that of C109; the error of two roundings is below one satoshi |
| C111 | induction on the path, from C58; children are unique, so the path determines every field of the key |
| C112 | the wire view of C34 and the payments of C92 translated to lists of outpoints and amounts; sizes from C103 |
| C113 | a form determines the instructions and the instructions are determined by the bytes (C27), so that each script has one form; inputs from C92; the inputs that spend scripts from C74: they only push, and signatures have 9 to 73 bytes |
| C114 | the wire view of C34; the frame of signing from C37 |
| C115 | composes C60 with C105: paying the request is the program of C105 for the amount that C60 gives |
| C116 | relative error of each rounding, multiplied; rounding is monotone because it is to the nearest |
| C117 | inversion of each reader in both directions; the lists of inputs and outputs by induction on the count |
| C118 | one inductive relation for each reader, shown to be sound for it and total, hence its graph |
| C119 | one inductive relation for each writer, composed from those of its parts, shown to be sound and total |
| C120 | one inductive relation for each `sign`, on top of those of C119, shown to be total and to have at most one result; the public key of a key by C20 and C18 |
| C121 | one inductive relation for each `create` and `can_sign`, on top of those of C118 and C119, shown to be total and to have at most one result |
| C122 | one inductive relation for `HDPublicKey(...)` and for each `derive`, on top of those of C119; the sum of two points by C23, also when it is infinity |
| C123 | one inductive relation for the opcodes that are executed, one for the instruction, one for the way through the script (Spec/Step.lean); each constructor computes, and each branch that passes meets one |
| C124 | one inductive relation for each question; decimal digits without leading zeros are unique by induction from the end; the tables over all 256 opcodes are evaluated in the kernel |
| C125 | one inductive relation for each conversion; multiplication by a secret is reduced modulo the order of the generator, and the result is the point of the group with reduced coordinates, which is unique |
| C126 | one inductive relation for each operation of IEEE arithmetic; of two candidates for the rounded number each would be an even multiple of their distance, so that there is one |
| C127 | one inductive relation for each codec, with the two kinds of Base58Check function (those that raise EncodingError and those that answer False) treated once each |
| C128 | one inductive relation for each function of `ecdsa.py`, from C24, C25 and C62; no point has abscissa 0, so `sign` fails only for `s = 0`; the two candidates of recovery differ because no element has order 2; a point given with another representative of its abscissa follows the usual computation until it is added to itself (`Proofs/Unreduced.lean`): in the double-and-add loop for the factor `n - 2` only |
| C129 | one inductive relation for each reader and getter of scripts, over the wire format, the words and the shapes; assembled from C30, C32, C93, C108 and C117 |
| C130 | one inductive relation for each maker and reader of inputs, outputs and transactions; the refusals are those of C117, the objects are computed from the form |
| C131 | Euclid with floor division for both signs of the modulus; Euler's power modulo any number; the search is over a period of residues |
| C132 | the loop invariant of C23 with the doublings listed: the one at bit t doubles the multiple by 3e/2^t - e/2^t |
| C133 | one relation for each class, over the names of C124; numbers are ASCII as text, so only texts can fail in `to_uri` |
| C134 | the relations of C118 and C130 give lengths and first bytes; a transaction has at least 60 bytes, a script in words has `_` or a space, a public key in hexadecimal begins with `0`, none of which base 58 has |
| C135 | what is on the wire determines the object (`tx_at` of C130), and the canonical form is one of the forms; for URIs induction on the number of satoshis, with C60 for a round |
| C136 | doubling and adding commute with the reduction of the abscissa unless two equal abscissas differ as integers; induction on the bits as in C132, the added point kept as given |
| C137 | the texts are cut at commas that numerals do not have |
| C138 | pushes leave what they push, so that the stack has one element more than there are signatures and the script; instructions are a prefix code, so that the count of the bytes is that of the instructions |
| C139 | the forms of the reference client never have the shape on which the classification fails; an input that only pushes leaves as many elements as it has instructions, and three are too few to fail |
| C140 | equality in Python and the classes of the inputs determine the bytes and what signing does, and reading keeps the one and restoring the other; induction over the signers, with C104 for what can be written between them |
| C141 | an inductive relation of single steps between objects, whose reflexive transitive closure preserves the network; the refutations change the network of the keys and compare |
| C142 | the scripts read and the forms of the reference client are both reduced to lists of instructions (`Encodes`), which are unique; sums by induction over the outputs |
| C143 | composition of C111 (the secret of a path), C20 (its public key), C42, C83 and C142; uniqueness of the secret by the order of the generator |
| C144 | C98 gives the form of the input, the encoding relation of scripts its instructions and class; the key by C18 and C19 |
| C145 | the pushes that MINIMALDATA leaves, and the stack that CLEANSTACK leaves, give the input its form; then the encoding relation of scripts, as for C144 |
| C146 | the shape of the script that was read, as for C142; unspendable because nothing gets past OP_RETURN (C106) |

The transcription of the reference client (`Spec/Reference.lean`, `Spec/Consensus.lean`, and
`Spec/Policy.lean` for the checks of C112 to C114, `Spec/Inputs.lean` for those of C138) is that of Bitcoin Core as of
2015, with strict DER required of every signature (BIP 66 is enforced since); hybrid public keys are left out.

## Trusted base

Lean 4.33.0's kernel; Mathlib's definitions used in statements (`Nat.Prime`,
`ZMod`, `WeierstrassCurve.Affine.Point`, `Rat`, `Int.floor`, …).  Theorems depend
on at most `propext`, `Classical.choice`, `Quot.sound`.  No axioms, `sorry`,
`native_decide` or `bv_decide` are used.  The translation from Python to Lean
was done by hand and by reading; `Verif/Conformance.lean` checks it by running
the project's own test-suite (and BIP 32, RFC 6979 and transaction vectors)
against the model with the real hash functions, by evaluation.  These are tests
of the model, not proofs, and no theorem depends on them.  The behaviour of CPython, of `binascii`,
`urlparse`, `urllib` and `hashlib`, the digits and spaces of Unicode 5.2, and of the package `ecdsa` 0.13, is as stated
in the comments of the definitions.

## Python 3

On Python 3 the following differ from the model:

* `encode_int(0)` returns text (`chr(0)`), and `encode_varint(n)` for `n >= 253`
  raises TypeError (text + bytes); `Transaction.to_bytes` always raises.
* `from_bytes_32` has no length check and `to_bytes_32` raises OverflowError.
* `BitforgeError.__str__` uses the attribute `message`, which does not exist.
* `validate_signature` raises TypeError (`map` has no length).
* `to_string` of extended keys raises TypeError.
* `float` texts and `str(float)` use the shortest text that reads back, so that
  C60/C67 lose fewer digits.
