import Verif.Transaction

/-! # `examples/example_pubkey.py`, `examples/example_serial.py`

The two programs, for any number of outputs to spend, each of the address of a private key of its own, and of payments.
The examples spend one output and pay back to its address.  Not modelled: the constants at the top, `log`. -/

namespace Bitforge

/-- An output to spend: the arguments of `AddressInput.create`, example_pubkey.py:9-10, and the private key, :14. -/
structure Coin where
  txId : Text
  index : Int
  key : PrivateKey
  deriving DecidableEq, Repr

namespace Payment

/-- `pubkey`, `address` and `inputs`, example_pubkey.py:15-19, example_serial.py:23-26. -/
def inputs (H : Hashes) : List Coin → Except Err (List Input)
  | [] => .ok []
  | c :: cs =>
    match c.key.toPublicKey with
    | .error e => .error e
    | .ok pubkey =>
      match pubkey.toAddress H with
      | .error e => .error e
      | .ok address =>
        match AddressInput.create c.txId c.index address with
        | .error e => .error e
        | .ok x =>
          match inputs H cs with
          | .error e => .error e
          | .ok xs => .ok (x :: xs)

/-- `outputs`, example_pubkey.py:20, example_serial.py:27. -/
def outputs : List (Int × Address) → Except Err (List Output)
  | [] => .ok []
  | (amount, address) :: ps =>
    match AddressOutput.create amount address with
    | .error e => .error e
    | .ok o =>
      match outputs ps with
      | .error e => .error e
      | .ok os => .ok (o :: os)

/-- `tx`, example_pubkey.py:22, example_serial.py:29. -/
def build (H : Hashes) (coins : List Coin) (payments : List (Int × Address)) : Except Err Transaction :=
  match inputs H coins with
  | .error e => .error e
  | .ok xs =>
    match outputs payments with
    | .error e => .error e
    | .ok os => Transaction.new (xs.map some) (os.map some)

/-- `tx.sign([ privkey ], n)` for every input from the one at `n` on, example_pubkey.py:24. -/
def sign (H : Hashes) (signers : Nat → Signer) : Nat → List PrivateKey → Transaction → Except Err Transaction
  | _, [], t => .ok t
  | n, k :: ks, t =>
    match t.sign H (signers n) [k] n with
    | .error e => .error e
    | .ok u => sign H signers (n + 1) ks u

/-- `signed_transaction_hex`, example_pubkey.py:14-24. -/
def run (H : Hashes) (signers : Nat → Signer) (coins : List Coin) (payments : List (Int × Address)) : Except Err Text :=
  match build H coins payments with
  | .error e => .error e
  | .ok t =>
    match sign H signers 0 (coins.map Coin.key) t with
    | .error e => .error e
    | .ok u => u.toHex

/-- README.md:32-85, "Send bitcoins from an address to another" and "Send funds to a multisig address", for any coins and
outputs, and `to_hex` of the signed transaction. -/
def transfer (H : Hashes) (signers : Nat → Signer) (coins : List Coin) (outs : List Output) : Except Err Text :=
  match inputs H coins with
  | .error e => .error e
  | .ok xs =>
    match Transaction.new (xs.map some) (outs.map some) with
    | .error e => .error e
    | .ok t =>
      match sign H signers 0 (coins.map Coin.key) t with
      | .error e => .error e
      | .ok u => u.toHex

end Payment
end Bitforge
