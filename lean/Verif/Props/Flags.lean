import Verif.Props.Interp

/-! # C97: verification flags only restrict

A flag is a soft fork: what is accepted with it is accepted without it.  The relation of the statement is about the bits of
the two numbers; it mentions nothing of the interpreter. -/

namespace Bitforge
namespace Interpreter
open Spec

/-- The bits of `flags` that matter for acceptance: P2SH, NULLDUMMY, SIGPUSHONLY, MINIMALDATA and
DISCOURAGE_UPGRADABLE_NOPS, interpreter.py:798-836. -/
def matters : List Nat := [0, 4, 5, 6, 7]

/-- `f` asks for no more than `g` does. -/
def Weaker (f g : Nat) : Prop := ∀ n ∈ matters, f.testBit n = true → g.testBit n = true

/-- The same outcome with other flags. -/
def Res.withFlags (f : Nat) : Res → Res
  | .next s => .next { s with flags := f }
  | .stop s => .stop { s with flags := f }
  | .raised s e => .raised { s with flags := f } e

/-- If the first goes on so does the second, in the same way. -/
def Lifts (f : Nat) (r r' : Res) : Prop := ∀ t, r = .next t → r' = .next { t with flags := f }

theorem Lifts.of_eq {f : Nat} {r r' : Res} (h : r' = r.withFlags f) : Lifts f r r' := by
  rintro t rfl
  exact h

theorem Lifts.of_ne {f : Nat} {r r' : Res} (h : ∀ t, r ≠ .next t) : Lifts f r r' := fun t ht => absurd ht (h t)

theorem lifts_ite {f : Nat} {c : Prop} [Decidable c] {a b a' b' : Res} (h1 : Lifts f a a') (h2 : Lifts f b b') :
    Lifts f (if c then a else b) (if c then a' else b') := by
  by_cases hc : c
  · rw [if_pos hc, if_pos hc]; exact h1
  · rw [if_neg hc, if_neg hc]; exact h2

theorem opIf_flags (s : State) (f : Nat) (x n : Bool) : opIf { s with flags := f } x n = (opIf s x n).withFlags f := by
  rcases s with ⟨st, al, pc, pb, nc, vf, er, fl, sc⟩
  unfold opIf
  cases x
  · rfl
  · cases st <;> rfl

theorem opElse_flags (s : State) (f : Nat) : opElse { s with flags := f } = (opElse s).withFlags f := by
  rcases s with ⟨st, al, pc, pb, nc, vf, er, fl, sc⟩
  unfold opElse
  cases vf <;> rfl

theorem opEndif_flags (s : State) (f : Nat) : opEndif { s with flags := f } = (opEndif s).withFlags f := by
  rcases s with ⟨st, al, pc, pb, nc, vf, er, fl, sc⟩
  unfold opEndif
  cases vf <;> rfl

theorem opVerify_flags (s : State) (f : Nat) : opVerify { s with flags := f } = (opVerify s).withFlags f := by
  rcases s with ⟨st, al, pc, pb, nc, vf, er, fl, sc⟩
  unfold opVerify
  cases st with
  | nil => rfl
  | cons x r => simp only []; split <;> rfl

theorem toAltStack_flags (s : State) (f : Nat) : toAltStack { s with flags := f } = (toAltStack s).withFlags f := by
  rcases s with ⟨st, al, pc, pb, nc, vf, er, fl, sc⟩
  unfold toAltStack
  cases st <;> rfl

theorem fromAltStack_flags (s : State) (f : Nat) :
    fromAltStack { s with flags := f } = (fromAltStack s).withFlags f := by
  rcases s with ⟨st, al, pc, pb, nc, vf, er, fl, sc⟩
  unfold fromAltStack
  cases al <;> rfl

theorem opEqual_flags (s : State) (f : Nat) (v : Bool) : opEqual { s with flags := f } v = (opEqual s v).withFlags f := by
  rcases s with ⟨st, al, pc, pb, nc, vf, er, fl, sc⟩
  unfold opEqual
  rcases st with _ | ⟨x, _ | ⟨y, r⟩⟩
  · rfl
  · rfl
  · cases v
    · rfl
    · cases h : (y.val == x.val) <;> simp [h, fail, Res.withFlags]

theorem opWithin_flags (s : State) (f : Nat) : opWithin { s with flags := f } = (opWithin s).withFlags f := by
  rcases s with ⟨st, al, pc, pb, nc, vf, er, fl, sc⟩
  unfold opWithin
  rcases st with _ | ⟨x, _ | ⟨y, _ | ⟨z, r⟩⟩⟩
  · rfl
  · rfl
  · rfl
  · cases h1 : decodeScriptNumber z <;> simp only [h1, Res.withFlags]
    cases h2 : decodeScriptNumber y <;> simp only []
    cases h3 : decodeScriptNumber x <;> simp only []

theorem opHash_flags (H : Hashes) (s : State) (f op : Nat) : opHash H { s with flags := f } op = (opHash H s op).withFlags f := by
  rcases s with ⟨st, al, pc, pb, nc, vf, er, fl, sc⟩
  unfold opHash
  cases st with
  | nil => rfl
  | cons x r => simp only []; cases hashOp H op x.val <;> rfl

theorem ok_of_ite {α : Type} {c : Prop} [Decidable c] {e : Err} {r : Except Err α} {a : α}
    (h : (if c then .error e else r) = .ok a) : r = .ok a := by
  by_cases hc : c
  · rw [if_pos hc] at h; cases h
  · rw [if_neg hc] at h; exact h

/-- A number read in the minimal way is read the same way without that demand. -/
theorem decodeScriptNumber_weaker {d : Data} {m m' : Bool} {sz : Nat} {n : Int} (hm : m = true → m' = true)
    (h : decodeScriptNumber d m' sz = .ok n) : decodeScriptNumber d m sz = .ok n := by
  cases m
  · cases m'
    · exact h
    · unfold decodeScriptNumber at h ⊢
      simp only [] at h ⊢
      split at h
      · cases h
      · next hl =>
        rw [if_neg hl]
        split at h
        · exact h
        · next last rest hr =>
          split at h
          · cases h
          · rw [if_neg (by simp)]
            exact ok_of_ite h
  · rw [hm rfl] at h
    exact h

theorem pickRoll_lifts {s : State} {f : Nat} {m m' r : Bool} (hm : m = true → m' = true) :
    Lifts f (pickRoll s m' r) (pickRoll { s with flags := f } m r) := by
  intro t h
  unfold pickRoll at h ⊢
  rcases hs : s.stack with _ | ⟨x, _ | ⟨y, q⟩⟩ <;> rw [hs] at h <;> simp only [] at h ⊢
  · exact absurd h fail_ne
  · exact absurd h fail_ne
  · cases hd : decodeScriptNumber x m' with
    | error e => rw [hd] at h; cases h
    | ok n =>
      rw [decodeScriptNumber_weaker hm hd]
      rw [hd] at h
      simp only [] at h ⊢
      split at h
      · exact absurd h fail_ne
      · next hn =>
        rw [if_neg hn]
        split at h
        · cases h
        · cases h; rfl

theorem opUnary_lifts {s : State} {f : Nat} {m m' : Bool} {op : Nat} (hm : m = true → m' = true) :
    Lifts f (opUnary s m' op) (opUnary { s with flags := f } m op) := by
  intro t h
  unfold opUnary at h ⊢
  cases hs : s.stack with
  | nil => rw [hs] at h; exact absurd h fail_ne
  | cons x r =>
    rw [hs] at h
    simp only [] at h ⊢
    cases hd : decodeScriptNumber x m' with
    | error e => rw [hd] at h; cases h
    | ok n => rw [hd] at h; rw [decodeScriptNumber_weaker hm hd]; cases h; rfl

theorem opBinary_lifts {s : State} {f : Nat} {m m' : Bool} {op : Nat} (hm : m = true → m' = true) :
    Lifts f (opBinary s m' op) (opBinary { s with flags := f } m op) := by
  intro t h
  unfold opBinary at h ⊢
  rcases hs : s.stack with _ | ⟨x, _ | ⟨y, q⟩⟩ <;> rw [hs] at h <;> simp only [] at h ⊢
  · exact absurd h fail_ne
  · exact absurd h fail_ne
  · cases hd : decodeScriptNumber y m' with
    | error e => rw [hd] at h; cases h
    | ok a =>
      rw [decodeScriptNumber_weaker hm hd]
      rw [hd] at h
      simp only [] at h ⊢
      cases hd2 : decodeScriptNumber x m' with
      | error e => rw [hd2] at h; cases h
      | ok b =>
        rw [decodeScriptNumber_weaker hm hd2]
        rw [hd2] at h
        simp only [] at h ⊢
        split at h
        · next ho =>
          rw [if_pos ho]
          split at h
          · next hc => rw [if_pos hc]; cases h; rfl
          · exact absurd h fail_ne
        · next ho => rw [if_neg ho]; cases h; rfl

theorem checkMultisig_lifts {s : State} {f : Nat} {m m' v : Bool} (hm : m = true → m' = true)
    (hd : f.testBit 4 = true → s.flags.testBit 4 = true) :
    Lifts f (checkMultisig s m' v) (checkMultisig { s with flags := f } m v) := by
  intro t h
  unfold checkMultisig at h ⊢
  cases hs : s.stack with
  | nil => rw [hs] at h; exact absurd h fail_ne
  | cons x r =>
    rw [hs] at h
    simp only [] at h ⊢
    cases hx : decodeScriptNumber x m' with
    | error e => rw [hx] at h; cases h
    | ok keys =>
      rw [decodeScriptNumber_weaker hm hx]
      rw [hx] at h
      simp only [] at h ⊢
      rcases ite_next h with ⟨_, h⟩ | ⟨c1, h⟩
      · exact absurd h fail_ne
      rcases ite_next h with ⟨_, h⟩ | ⟨c2, h⟩
      · exact absurd h fail_ne
      rcases ite_next h with ⟨_, h⟩ | ⟨c3, h⟩
      · exact absurd h fail_ne
      rw [if_neg c1, if_neg c2, if_neg c3]
      cases hy : (x :: r)[keys.toNat + 1]? with
      | none => rw [hy] at h; cases h
      | some y =>
        rw [hy] at h
        simp only [] at h ⊢
        cases hn : decodeScriptNumber y m' with
        | error e => rw [hn] at h; cases h
        | ok sigs =>
          rw [decodeScriptNumber_weaker hm hn]
          rw [hn] at h
          simp only [] at h ⊢
          rcases ite_next h with ⟨_, h⟩ | ⟨c4, h⟩
          · exact absurd h fail_ne
          rcases ite_next h with ⟨_, h⟩ | ⟨c5, h⟩
          · exact absurd h fail_ne
          rw [if_neg c4, if_neg c5]
          cases hr : removeAll ⟨.generic, s.script.drop s.pbegincodehash⟩
              (((x :: r).drop (keys.toNat + 2)).take sigs.toNat) with
          | error e => rw [hr] at h; cases h
          | ok u =>
            rw [hr] at h
            simp only [] at h ⊢
            rcases ite_next h with ⟨_, h⟩ | ⟨c6, h⟩
            · cases h
            rw [if_neg c6]
            cases hk : (x :: r).drop (sigs + keys + 2).toNat with
            | nil => rw [hk] at h; exact absurd h fail_ne
            | cons dm q =>
              rw [hk] at h
              simp only [] at h ⊢
              rcases ite_next h with ⟨_, h⟩ | ⟨c7, h⟩
              · exact absurd h fail_ne
              have c8 : ¬ (flag { s with stack := dm :: q, nopCount := s.nopCount + keys, flags := f } NULLDUMMY = true ∧
                  dm.val ≠ []) := fun hh => c7 ⟨hd hh.1, hh.2⟩
              rw [if_neg c8]
              cases v <;> (cases h; rfl)

theorem exec_lifts {H : Hashes} {s : State} {f op : Nat} {x : Bool} (hw : Weaker f s.flags) :
    Lifts f (exec H s op x) (exec H { s with flags := f } op x) := by
  have hm : flag { s with flags := f } MINIMALDATA = true → flag s MINIMALDATA = true := hw 6 (by decide)
  unfold exec
  simp only []
  apply lifts_ite
  · exact .of_eq rfl
  apply lifts_ite
  · exact .of_eq rfl
  apply lifts_ite
  · exact .of_ne fun t => checkLockTimeVerify_ne _ _ _
  apply lifts_ite
  · intro t h
    rcases ite_next h with ⟨_, h⟩ | ⟨c, h⟩
    · exact absurd h fail_ne
    · rw [if_neg (show ¬ flag { s with flags := f } DISCOURAGE_NOPS = true from fun hh => c (hw 7 (by decide) hh))]
      cases h; rfl
  apply lifts_ite
  · exact .of_eq (opIf_flags _ _ _ _)
  apply lifts_ite
  · exact .of_eq (opIf_flags _ _ _ _)
  apply lifts_ite
  · exact .of_eq (opElse_flags _ _)
  apply lifts_ite
  · exact .of_eq (opEndif_flags _ _)
  apply lifts_ite
  · exact .of_eq (opVerify_flags _ _)
  apply lifts_ite
  · exact .of_eq rfl
  apply lifts_ite
  · exact .of_eq (toAltStack_flags _ _)
  apply lifts_ite
  · exact .of_eq (fromAltStack_flags _ _)
  apply lifts_ite
  · cases stackOp op s.stack <;> exact .of_eq rfl
  apply lifts_ite
  · exact pickRoll_lifts hm
  apply lifts_ite
  · exact pickRoll_lifts hm
  apply lifts_ite
  · exact .of_eq (opEqual_flags _ _ _)
  apply lifts_ite
  · exact .of_eq (opEqual_flags _ _ _)
  apply lifts_ite
  · exact opUnary_lifts hm
  apply lifts_ite
  · exact opBinary_lifts hm
  apply lifts_ite
  · exact .of_eq (opWithin_flags _ _)
  apply lifts_ite
  · exact .of_eq (opHash_flags _ _ _ _)
  apply lifts_ite
  · exact .of_eq rfl
  apply lifts_ite
  · exact .of_ne fun t => checkSig_ne _ _
  apply lifts_ite
  · exact checkMultisig_lifts hm (hw 4 (by decide))
  apply lifts_ite
  · exact checkMultisig_lifts hm (hw 4 (by decide))
  exact .of_eq rfl

theorem dispatch_lifts {H : Hashes} {s : State} {f : Nat} {i : Instruction} (hw : Weaker f s.flags) :
    Lifts f (dispatch H s i) (dispatch H { s with flags := f } i) := by
  unfold dispatch
  simp only []
  apply lifts_ite
  · exact .of_eq rfl
  apply lifts_ite
  · intro t h
    by_cases hc : flag s MINIMALDATA = true
    · rw [if_pos hc] at h
      split at h
      · cases h
      · exact absurd h fail_ne
      · split <;> (cases h; rfl)
    · rw [if_neg hc] at h
      rw [if_neg (show ¬ flag { s with flags := f } MINIMALDATA = true from fun hh => hc (hw 6 (by decide) hh))]
      cases h; rfl
  apply lifts_ite
  · exact exec_lifts hw
  · exact .of_eq rfl

theorem step_lifts {H : Hashes} {s : State} {f : Nat} (hw : Weaker f s.flags) :
    Lifts f (step H s) (step H { s with flags := f }) := by
  unfold step
  simp only []
  cases s.script[s.pc]? with
  | none => exact .of_eq rfl
  | some i =>
    simp only []
    apply lifts_ite
    · exact .of_eq rfl
    apply lifts_ite
    · apply lifts_ite
      · exact .of_eq rfl
      · exact dispatch_lifts (s := { s with pc := s.pc + 1, nopCount := s.nopCount + 1 }) hw
    · exact dispatch_lifts (s := { s with pc := s.pc + 1 }) hw

theorem loop_lifts {H : Hashes} {n : Nat} {s : State} {f : Nat} (hw : Weaker f s.flags) :
    Lifts f (loop H n s) (loop H n { s with flags := f }) := by
  induction n generalizing s with
  | zero => exact .of_eq rfl
  | succ n ih =>
    simp only [loop]
    apply lifts_ite
    · intro t h
      cases hs : step H s with
      | next u =>
        rw [hs] at h
        rw [step_lifts hw u hs]
        obtain ⟨i, hi⟩ := step_next hs
        exact ih (hi.flags ▸ hw) t h
      | stop u => rw [hs] at h; cases h
      | raised u e => rw [hs] at h; cases h
    · exact .of_eq rfl

/-- C97. One evaluation: what passes with more flags passes with fewer, with the same stacks, conditionals and count. -/
theorem C97_evaluate {H : Hashes} {s t : State} {f : Nat} (hw : Weaker f s.flags) (h : evaluate H s = (.ok true, t)) :
    evaluate H { s with flags := f } = (.ok true, { t with flags := f }) := by
  obtain ⟨hb, hl, h1, h2⟩ := evaluate_ok.1 h
  refine evaluate_ok.2 ⟨hb, ?_, h1, h2⟩
  have := loop_det (loop_spec H _ s rfl) hl
  have := loop_lifts hw t this
  rw [← this]
  exact loop_spec H _ { s with flags := f } rfl

/-- C97. `verify` is monotone in its flags: a pair of scripts accepted under some flags is accepted under any flags that ask
for no more, and leaves the same state behind. -/
theorem C97_monotone {H : Hashes} {b u : State} {sig pub : Script} {f g : Nat} (hw : Weaker f g)
    (h : verify H b sig pub g = (.ok true, u)) : verify H b sig pub f = (.ok true, { u with flags := f }) := by
  obtain ⟨hp, h0, t, h1, h2, h3⟩ := verify_true.1 h
  refine verify_true.2 ⟨fun hf => hp (hw 5 (by decide) hf), ?_, { t with flags := f },
    C97_evaluate (s := start sig [] g) hw h1, C97_evaluate (s := start pub t.stack g) hw h2, h3⟩
  cases hf : f.testBit 0 with
  | false => rfl
  | true => rw [hw 0 (by decide) hf] at h0; cases h0

/-- C97. In particular removing flags, whichever, never makes an accepted pair unacceptable: each is a soft fork. -/
theorem C97_soft {H : Hashes} {b u : State} {sig pub : Script} {f g : Nat}
    (hs : ∀ n, f.testBit n = true → g.testBit n = true) (h : verify H b sig pub g = (.ok true, u)) :
    verify H b sig pub f = (.ok true, { u with flags := f }) :=
  C97_monotone (fun n _ => hs n) h

/-- C97. Of all flags only five have a say in whether a pair is accepted: STRICTENC, DERSIG, LOW_S,
CHECKLOCKTIMEVERIFY and the rest have none. -/
theorem C97_only {H : Hashes} (b : State) (sig pub : Script) {f g : Nat}
    (hs : ∀ n ∈ [0, 4, 5, 6, 7], f.testBit n = g.testBit n) :
    (verify H b sig pub f).1 = .ok true ↔ (verify H b sig pub g).1 = .ok true := by
  have key : ∀ {f g : Nat}, Weaker f g → (verify H b sig pub g).1 = .ok true → (verify H b sig pub f).1 = .ok true := by
    intro f g hw h
    have h' : verify H b sig pub g = (.ok true, (verify H b sig pub g).2) := by rw [← h]
    rw [C97_monotone hw h']
  exact ⟨key fun n hn h => by rw [hs n hn]; exact h, key fun n hn h => by rw [← hs n hn]; exact h⟩

/-- `OP_n` without data. -/
def plain (n : Byte) : Instruction := ⟨.num n, none⟩

/-- A script without OP_RIPEMD160, OP_SHA1, OP_SHA256, OP_HASH160 and OP_HASH256. -/
def Hashless (l : List Instruction) : Prop := ∀ i ∈ l, ¬ (166 ≤ opOf i ∧ opOf i ≤ 170)

theorem exec_hashless {H H' : Hashes} {s : State} {op : Nat} {x : Bool} (h : ¬ (166 ≤ op ∧ op ≤ 170)) :
    exec H s op x = exec H' s op x := by
  unfold exec
  simp only [if_neg h]

theorem dispatch_hashless {H H' : Hashes} {s : State} {i : Instruction} (h : ¬ (166 ≤ opOf i ∧ opOf i ≤ 170)) :
    dispatch H s i = dispatch H' s i := by
  unfold dispatch
  simp only [exec_hashless (H := H) (H' := H') (show ¬ (166 ≤ i.opcode.number.val ∧ i.opcode.number.val ≤ 170) from h)]

theorem step_hashless {H H' : Hashes} {s : State} (h : Hashless s.script) : step H s = step H' s := by
  rw [step_eq, step_eq]
  cases hi : s.script[s.pc]? with
  | none => rfl
  | some i => simp only [dispatch_hashless (H := H) (H' := H') (h i (List.mem_of_getElem? hi))]

theorem loop_hashless {H H' : Hashes} {n : Nat} {s : State} (h : Hashless s.script) : loop H n s = loop H' n s := by
  induction n generalizing s with
  | zero => rfl
  | succ n ih =>
    simp only [loop]
    rw [step_hashless (H := H) (H' := H') h]
    cases hs : step H' s with
    | next u =>
      obtain ⟨i, hi⟩ := step_next hs
      simp only [ih (show Hashless u.script from hi.script ▸ h)]
    | stop u => rfl
    | raised u e => rfl

theorem evaluate_hashless {H H' : Hashes} {s : State} (h : Hashless s.script) : evaluate H s = evaluate H' s := by
  unfold evaluate
  rw [loop_hashless (H := H) (H' := H') h]

theorem verify_hashless {H H' : Hashes} {b : State} {sig pub : Script} {f : Nat} (h : Hashless sig.instructions)
    (h' : Hashless pub.instructions) : verify H b sig pub f = verify H' b sig pub f := by
  rw [verify_eq, verify_eq, evaluate_hashless (H := H) (H' := H') (s := start sig [] f) h]
  have : ∀ st, evaluate H (start pub st f) = evaluate H' (start pub st f) := fun st => evaluate_hashless h'
  simp only [this]

/-- C97. The five do: for each there is a pair accepted without flags, and not with that one. -/
theorem C97_needed (H : Hashes) (b : State) : ∀ n ∈ [0, 4, 5, 6, 7], ∃ sig pub : Script,
    (verify H b sig pub 0).1 = .ok true ∧ (verify H b sig pub (2 ^ n)).1 ≠ .ok true := by
  have key : ∀ (n : Nat) (sig pub : Script), Hashless sig.instructions → Hashless pub.instructions →
      (verify Hashes.toy {} sig pub 0).1 = .ok true ∧ (verify Hashes.toy {} sig pub (2 ^ n)).1 ≠ .ok true →
      ∃ sig pub : Script, (verify H b sig pub 0).1 = .ok true ∧ (verify H b sig pub (2 ^ n)).1 ≠ .ok true := by
    intro n sig pub h1 h2 h
    refine ⟨sig, pub, ?_⟩
    rw [verify_hashless (H' := Hashes.toy) h1 h2 (f := 0), verify_hashless (H' := Hashes.toy) h1 h2 (f := 2 ^ n)]
    exact h
  intro n hn
  simp only [List.mem_cons, List.not_mem_nil, or_false] at hn
  rcases hn with rfl | rfl | rfl | rfl | rfl
  · exact key 0 ⟨.generic, [plain 81]⟩ ⟨.generic, []⟩ (by unfold Hashless; decide) (by unfold Hashless; decide)
      (by decide +kernel)
  · exact key 4 ⟨.generic, [plain 81]⟩ ⟨.generic, [plain 0, plain 0, plain 174]⟩ (by unfold Hashless; decide)
      (by unfold Hashless; decide) (by decide +kernel)
  · exact key 5 ⟨.generic, [plain 81, plain 97]⟩ ⟨.generic, []⟩ (by unfold Hashless; decide) (by unfold Hashless; decide)
      (by decide +kernel)
  · exact key 6 ⟨.generic, [⟨.num 1, some ⟨.bytearray, [1]⟩⟩]⟩ ⟨.generic, []⟩ (by unfold Hashless; decide)
      (by unfold Hashless; decide) (by decide +kernel)
  · exact key 7 ⟨.generic, [plain 81]⟩ ⟨.generic, [plain 176]⟩ (by unfold Hashless; decide) (by unfold Hashless; decide)
      (by decide +kernel)

-- The hypotheses are met: MINIMALDATA and DERSIG together, then neither.
example : (verify Hashes.toy {} ⟨.generic, [plain 81, plain 82]⟩ ⟨.generic, [plain 147, plain 83, plain 135]⟩ 68).1 = .ok true ∧
    Weaker 4 68 ∧ Weaker 64 68 ∧ Weaker 68 64 ∧ ¬ Weaker 64 4 := by
  refine ⟨by decide +kernel, ?_, ?_, ?_, ?_⟩ <;> unfold Weaker <;> decide

end Interpreter
end Bitforge
