import Verif.Props.TextKind
import Verif.Props.TxOutcome
import Verif.Props.Ledger
import Verif.Props.Names

/-! # C134: bytes and texts that are accepted as two different things -/

namespace Bitforge.One
open Spec Txs

/-- What has a form in bytes. -/
inductive ByteKind
  | privateKey | publicKey | address | transaction
  deriving DecidableEq

/-- Are the bytes accepted as such, for some network and for either choice of compression? -/
def ByteKind.Accepts (b : Bytes) : ByteKind → Prop
  | .privateKey => ∃ n c k, PrivateKey.fromBytes b (.network n) c = .ok k
  | .publicKey => ∃ n k, PublicKey.fromBytes ⟨.str, b⟩ (.network n) = .ok k
  | .address => ∃ a, Address.fromBytes b = .ok a
  | .transaction => ∃ t, Transaction.fromBytes b = .ok t

/-- Is the hexadecimal text accepted as such? -/
def ByteKind.AcceptsHex (t : Text) : ByteKind → Prop
  | .privateKey => ∃ n c k, PrivateKey.fromHex t (.network n) c = .ok k
  | .publicKey => ∃ n k, PublicKey.fromHex t (.network n) = .ok k
  | .address => ∃ a, Address.fromHex t = .ok a
  | .transaction => ∃ x, Transaction.fromHex t = .ok x

theorem secret_bytes {b : Bytes} (h : ByteKind.privateKey.Accepts b) : b.length = 32 := by
  obtain ⟨n, c, k, h⟩ := h
  cases (C118_private_bytes b n c _).1 h with
  | key h' _ => exact h'

theorem address_bytes {b : Bytes} (h : ByteKind.address.Accepts b) : b.length = 21 := by
  obtain ⟨a, h⟩ := h
  cases (C118_address_bytes b _).1 h with
  | address h' => rw [h'.2, List.length_cons, h'.1]

theorem public_bytes {b : Bytes} (h : ByteKind.publicKey.Accepts b) :
    33 ≤ b.length ∧ ∃ v r, b = v :: r ∧ (v = 2 ∨ v = 3 ∨ v = 4) := by
  obtain ⟨n, k, h⟩ := h
  cases (C118_public_bytes b n _).1 h with
  | @long x y rest hx hy _ => exact ⟨by simp [hx, hy], _, _, rfl, .inr (.inr rfl)⟩
  | @compressed v x rest y hv hx _ _ =>
    exact ⟨by simp [hx], _, _, rfl, hv.elim (fun h => .inl h.1) fun h => .inr (.inl h.1)⟩

theorem count_length {n : Nat} {c : Bytes} (h : CountForm n c) : 1 ≤ c.length := by
  cases h <;> simp

/-- A transaction has at least 60 bytes, the first of which is the lowest of its version. -/
theorem transaction_bytes {b : Bytes} {t : Transaction} (h : Transaction.fromBytes b = .ok t) :
    60 ≤ b.length ∧ ∃ v r, b = v :: r ∧ (v.val : Int) = t.version % 256 := by
  cases (C130_transaction_bytes b _).1 h with
  | @transaction w p rest is os hw hi ho hf hb _ _ =>
    obtain ⟨c, is', d, os', hc, hli, hd, hlo, rfl⟩ := hf
    have h1 := count_length hc
    have h2 := count_length hd
    have h3 : 41 ≤ is'.length := by
      have hall := hw.2.2.1
      generalize w.inputs = l at hli hi hall
      cases hli with
      | nil => exact absurd rfl hi
      | @cons y b ys bs hy _ =>
        obtain ⟨c, hc, rfl⟩ := hy
        have := count_length hc
        have := (hall y (by simp)).1
        simp [le_length]; omega
    have h4 : 9 ≤ os'.length := by
      generalize w.outputs = l at hlo ho
      cases hlo with
      | nil => exact absurd rfl ho
      | @cons y b ys bs hy _ =>
        obtain ⟨c, hc, rfl⟩ := hy
        have := count_length hc
        simp [le_length]; omega
    subst hb
    refine ⟨by simp [le_length]; omega, ?_⟩
    have : ∃ v r, le 4 w.version = v :: r ∧ v.val = w.version % 256 := ⟨_, _, rfl, rfl⟩
    obtain ⟨v, r, hv, hm⟩ := this
    refine ⟨v, r ++ c ++ is' ++ d ++ os' ++ le 4 w.lockTime ++ rest, by rw [hv]; simp, ?_⟩
    show (v.val : Int) = (w.version : Int) % 256
    rw [hm]; rfl

/-- The two kinds that are not told apart. -/
def Mixed (b : Bytes) (k k' : ByteKind) : Prop :=
  (k = .publicKey ∧ k' = .transaction ∨ k = .transaction ∧ k' = .publicKey) ∧
    ∃ t, Transaction.fromBytes b = .ok t ∧ (t.version % 256 = 2 ∨ t.version % 256 = 3 ∨ t.version % 256 = 4)

/-- C134. No bytes are accepted as two of a private key, a public key, an address and a transaction, except as a public key
and a transaction whose version is 2, 3 or 4 modulo 256.  Missing: that case, see `C134_bytes_refuted`. -/
theorem C134_bytes_partial (b : Bytes) (k k' : ByteKind) (h : k.Accepts b) (h' : k'.Accepts b) : k = k' ∨ Mixed b k k' := by
  have tx : ByteKind.transaction.Accepts b → 60 ≤ b.length := fun ⟨t, h⟩ => (transaction_bytes h).1
  have both : ByteKind.publicKey.Accepts b → ByteKind.transaction.Accepts b →
      ∃ t, Transaction.fromBytes b = .ok t ∧ (t.version % 256 = 2 ∨ t.version % 256 = 3 ∨ t.version % 256 = 4) := by
    rintro hp ⟨t, ht⟩
    obtain ⟨-, v, r, e, hv⟩ := public_bytes hp
    obtain ⟨-, v', r', e', hm⟩ := transaction_bytes ht
    obtain ⟨rfl, -⟩ := List.cons.inj (e.symm.trans e')
    refine ⟨t, ht, ?_⟩
    rw [← hm]
    rcases hv with rfl | rfl | rfl <;> decide
  cases k <;> cases k' <;> first
    | exact .inl rfl
    | exact .inr ⟨.inl ⟨rfl, rfl⟩, both h h'⟩
    | exact .inr ⟨.inr ⟨rfl, rfl⟩, both h' h⟩
    | (exfalso
       first
       | (have := secret_bytes h; have := address_bytes h'; omega) | (have := address_bytes h; have := secret_bytes h'; omega)
       | (have := secret_bytes h; have := (public_bytes h').1; omega)
       | (have := (public_bytes h).1; have := secret_bytes h'; omega)
       | (have := address_bytes h; have := (public_bytes h').1; omega)
       | (have := (public_bytes h).1; have := address_bytes h'; omega)
       | (have := secret_bytes h; have := tx h'; omega) | (have := tx h; have := secret_bytes h'; omega)
       | (have := address_bytes h; have := tx h'; omega) | (have := tx h; have := address_bytes h'; omega))

theorem hex_bytes {t : Text} {k : ByteKind} (h : k.AcceptsHex t) :
    ∃ b, hexText b = t.map Char.toLower ∧ (∀ c ∈ t, c ∈ hexChars) ∧ k.Accepts b := by
  cases k with
  | privateKey =>
    obtain ⟨n, c, k, h⟩ := h
    cases (C118_private_hex t n c _).1 h with
    | bytes h1 h2 h3 => exact ⟨_, h2, h1, n, c, k, (C118_private_bytes _ _ _ _).2 h3⟩
  | publicKey =>
    obtain ⟨n, k, h⟩ := h
    cases (C118_public_hex t n _).1 h with
    | bytes h1 h2 h3 => exact ⟨_, h2, h1, n, k, (C118_public_bytes _ _ _).2 h3⟩
  | address =>
    obtain ⟨a, h⟩ := h
    cases (C118_address_hex t _).1 h with
    | bytes h1 h2 h3 => exact ⟨_, h2, h1, a, (C118_address_bytes _ _).2 h3⟩
  | transaction =>
    obtain ⟨x, h⟩ := h
    cases (C130_hex .generic t (.error .invalidHex) (.error .invalidHex) _).2.2.1 h with
    | bytes h1 h2 h3 => exact ⟨_, h2, h1, x, (C130_transaction_bytes _ _).2 h3⟩

/-- C134. So it is for hexadecimal texts. -/
theorem C134_hex_partial (t : Text) (k k' : ByteKind) (h : k.AcceptsHex t) (h' : k'.AcceptsHex t) :
    k = k' ∨ ∃ b, hexText b = t.map Char.toLower ∧ Mixed b k k' := by
  obtain ⟨b, hb, -, h⟩ := hex_bytes h
  obtain ⟨b', hb', -, h'⟩ := hex_bytes h'
  obtain rfl := hexText_inj (hb.trans hb'.symm)
  exact (C134_bytes_partial b k k' h h').imp id fun h => ⟨b, hb, h⟩

/-- A transaction of version 2 that spends output 0 of a transaction whose hash has only one byte that is not 0. -/
def mixed : Bytes :=
  2 :: ([0, 0, 0, 1] ++ List.replicate 27 0 ++ [1]) ++
    (List.replicate 4 0 ++ List.replicate 4 0 ++ [0] ++ List.replicate 4 255 ++ [1] ++ [136, 19, 0, 0, 0, 0, 0, 0] ++ [1, 81] ++
      List.replicate 4 0)

/-- C134, refuted in full.  `PublicKey.from_bytes` does not look at what follows the coordinates, so the 61 bytes of this
transaction are accepted as a public key too: the version 2 is the mark of a compressed key with an even `y`. -/
theorem C134_bytes_refuted : ByteKind.transaction.Accepts mixed ∧ ByteKind.publicKey.Accepts mixed := by
  constructor
  · have : (Transaction.fromBytes mixed).toOption.isSome = true := by decide +kernel
    cases h : Transaction.fromBytes mixed with
    | ok t => exact ⟨t, h⟩
    | error e => rw [h] at this; cases this
  · refine ⟨Network.livenet, _, (C118_public_bytes _ _ _).2 (.compressed (x := [0, 0, 0, 1] ++ List.replicate 27 0 ++ [1])
      (y := 72578891825428724058549535481416168092801835600997558799473770552161370595882) (.inl ⟨rfl, ?_⟩) rfl ?_ ?_)⟩
    · decide
    · unfold OnSecp; decide +kernel
    · unfold reduced; decide +kernel

/-! ## Texts -/

theorem text_alphabet {H : Hashes} {t : Text} {k : TextKind} (h : k.Accepts H t) :
    25 ≤ t.length ∧ ∀ c ∈ t, c ∈ alphabet58 := by
  have chars : ∀ {d : Bytes}, Base58Check H d t → ∀ c ∈ t, c ∈ alphabet58 := by
    rintro d ⟨ds, hd, -⟩
    intro c hc
    have : ∀ {t : Text} {ds : List Nat}, Digits58 t ds → ∀ c ∈ t, c ∈ alphabet58 := by
      intro t ds h
      induction h with
      | nil => simp
      | cons h _ ih =>
        intro c hc
        rcases List.mem_cons.1 hc with rfl | hc
        · exact List.mem_of_getElem? h
        · exact ih c hc
    exact this hd c hc
  cases k with
  | address =>
    obtain ⟨a, h⟩ := h
    refine ⟨(C96_address H t a h).2.1, ?_⟩
    cases (C118_address_text H t _).1 h with
    | payload h1 _ => exact chars h1
  | wif =>
    obtain ⟨a, h⟩ := h
    refine ⟨by have := (C96_wif H t a h).2; split at this <;> omega, ?_⟩
    cases (C118_wif H t _).1 h with
    | key h1 _ _ => exact chars h1
  | extendedPrivate =>
    obtain ⟨a, h⟩ := h
    refine ⟨by have := ((C96_extended H t).1 a h).1; omega, ?_⟩
    cases (C118_extended_private H t _).1 h with
    | payload h1 _ => exact chars h1
  | extendedPublic =>
    obtain ⟨a, h⟩ := h
    refine ⟨by have := ((C96_extended H t).2 a h).1; omega, ?_⟩
    cases (C118_extended_public H t _).1 h with
    | payload h1 _ => exact chars h1

theorem text_lengths {H : Hashes} {t : Text} {k : TextKind} (h : k.Accepts H t) : t.length ≠ 42 ∧ t.length ≠ 64 := by
  cases k with
  | address => obtain ⟨a, h⟩ := h; have := (C96_address H t a h).2; omega
  | wif => obtain ⟨a, h⟩ := h; have := (C96_wif H t a h).2; split at this <;> omega
  | extendedPrivate => obtain ⟨a, h⟩ := h; have := ((C96_extended H t).1 a h).1; omega
  | extendedPublic => obtain ⟨a, h⟩ := h; have := ((C96_extended H t).2 a h).1; omega

/-- C134. No text is accepted both as the hexadecimal form of a key or an address and as an address or key in base 58. -/
theorem C134_hex_or_base58 (H : Hashes) (t : Text) (k : ByteKind) (hk : k ≠ .transaction) (h : k.AcceptsHex t) (k' : TextKind) :
    ¬ k'.Accepts H t := by
  intro h'
  obtain ⟨b, hb, hh, ha⟩ := hex_bytes h
  have hl : t.length = 2 * b.length := by
    have := congrArg List.length hb
    rw [hexText_eq, encodeHex_length, List.length_map] at this
    exact this.symm
  have hn := text_lengths h'
  cases k with
  | transaction => exact hk rfl
  | privateKey => have := secret_bytes ha; omega
  | address => have := address_bytes ha; omega
  | publicKey =>
    obtain ⟨-, v, r, rfl, hv⟩ := public_bytes ha
    cases t with
    | nil => simp at hl
    | cons c cs =>
      have hc : c.toLower = '0' := by
        have : (hexText (v :: r)).head? = some '0' := by rcases hv with rfl | rfl | rfl <;> rfl
        rw [hb] at this
        exact Option.some.inj this
      have h0 : ∀ c ∈ hexChars, c.toLower = '0' → c ∉ alphabet58 := by decide
      exact h0 c (hh c (by simp)) hc ((text_alphabet h').2 c (by simp))

theorem name_score {name : Text} {op : Byte} (h : NameOf name op) : '_' ∈ name := by
  obtain ⟨s, -, rfl, h⟩ := h
  have all : ∀ p ∈ opcodeNames, '_' ∈ p.1.toList := by decide +kernel
  exact all _ h

/-- C134. No text is accepted both as a script in words and as an address or key in base 58. -/
theorem C134_script_text (H : Hashes) (t : Text) (s : Script) (h : Script.fromText t = .ok s) (k : TextKind) :
    ¬ k.Accepts H t := by
  intro hk
  obtain ⟨hl, hc⟩ := text_alphabet hk
  obtain ⟨toks, rfl, -, hs⟩ := C31_from_string t s h
  have bad : ∀ c ∈ ['_', ' '], c ∉ alphabet58 := by decide
  have space : ∀ (a b : Text) (r : List Text), ' ' ∈ [' '].intercalate (a :: b :: r) := by
    intro a b r; simp [List.intercalate, List.intersperse]
  have first : ∀ (a : Text) (r : List Text), ∀ c ∈ a, c ∈ [' '].intercalate (a :: r) := by
    intro a r c hc
    cases r <;> simp [List.intercalate, List.intersperse, hc]
  generalize s.instructions.map Instruction.wire = l at hs
  cases hs with
  | nil => simp [List.intercalate] at hl
  | cons hw _ =>
    cases hw with
    | plain hn _ => exact bad '_' (by simp) (hc _ (first _ _ _ (name_score hn)))
    | direct _ _ _ => exact bad ' ' (by simp) (hc _ (space _ _ _))
    | counted _ _ _ _ _ => exact bad ' ' (by simp) (hc _ (space _ _ _))

/-! ## Examples -/

example : ByteKind.publicKey.Accepts mixed ∧ ¬ ByteKind.privateKey.Accepts mixed := by
  refine ⟨C134_bytes_refuted.2, fun h => ?_⟩
  rcases C134_bytes_partial _ _ _ C134_bytes_refuted.2 h with h | ⟨⟨-, h⟩ | ⟨-, h⟩, -⟩ <;> cases h

example : ByteKind.address.AcceptsHex (encodeHex (0xc4 :: List.replicate 20 7)) :=
  ⟨⟨List.replicate 20 7, netOf true, .script⟩, by decide +kernel⟩

example : ((Script.fromText "OP_DUP OP_HASH160".toList).toOption.any fun s => s.instructions.length == 2) = true := by
  decide +kernel

end Bitforge.One
