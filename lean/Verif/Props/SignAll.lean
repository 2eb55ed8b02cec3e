import Verif.Props.SignTx

/-! # C104: signing call by call -/

namespace Bitforge
open Spec Transaction

/-- One call of `sign`: who signs, with which keys, which input and for which type. -/
structure SignCall where
  signer : Signer
  keys : List PrivateKey
  index : Nat
  sigtype : Int

/-- The call on a transaction. -/
def SignCall.on (H : Hashes) (c : SignCall) (t : Transaction) : Except Err Transaction :=
  t.sign H c.signer c.keys c.index c.sigtype

/-- The calls one after the other, each on what the call before returned. -/
def signAll (H : Hashes) : List SignCall → Transaction → Except Err Transaction
  | [], t => .ok t
  | c :: cs, t =>
    match c.on H t with
    | .error e => .error e
    | .ok u => signAll H cs u

/-- `u` is `t` with the input of each call as that call alone makes it of `t`. -/
structure Merged (H : Hashes) (t : Transaction) (cs : List SignCall) (u : Transaction) : Prop where
  version : u.version = t.version
  lockTime : u.lockTime = t.lockTime
  outputs : u.outputs = t.outputs
  length : u.inputs.length = t.inputs.length
  others : ∀ n, (∀ c ∈ cs, c.index ≠ n) → u.inputs[n]? = t.inputs[n]?
  signed : ∀ c ∈ cs, ∃ v, c.on H t = .ok v ∧ u.inputs[c.index]? = v.inputs[c.index]?

/-- A call on what a call on another input has returned does to its input what it would have done before. -/
theorem on_other {H : Hashes} {c d : SignCall} {t v z : Transaction} (hcd : d.index ≠ c.index) (h : c.on H t = .ok v) :
    (d.on H v = .ok z → ∃ z', d.on H t = .ok z' ∧ z.inputs[d.index]? = z'.inputs[d.index]?) ∧
    (d.on H t = .ok z → ∃ z', d.on H v = .ok z' ∧ z.inputs[d.index]? = z'.inputs[d.index]?) := by
  have hne : resolve t.inputs.length (c.index : Int) ≠ resolve t.inputs.length (d.index : Int) := by
    unfold resolve
    rw [if_neg (by omega), if_neg (by omega)]
    omega
  obtain ⟨p, x, y, hp, hx, hy, rfl⟩ := (sign_ok_iff _ _ _ _ _ _ _).1 h
  obtain ⟨e1, e2⟩ := payload_other H t c.index d.index d.sigtype x y hx (input_sign_ok hy).2 hne
  constructor
  · intro h'
    obtain ⟨p', x', y', hp', hx', hy', rfl⟩ := (sign_ok_iff _ _ _ _ _ _ _).1 h'
    rw [e1] at hp'
    rw [e2] at hx'
    refine ⟨_, (sign_ok_iff _ _ _ _ _ _ _).2 ⟨p', x', y', hp', hx', hy', rfl⟩, ?_⟩
    simp only [atIndex_get]
    simp [hcd]
  · intro h'
    obtain ⟨p', x', y', hp', hx', hy', rfl⟩ := (sign_ok_iff _ _ _ _ _ _ _).1 h'
    refine ⟨_, (sign_ok_iff _ _ _ _ _ _ _).2 ⟨p', x', y', by rw [e1]; exact hp', by rw [e2]; exact hx', hy', rfl⟩, ?_⟩
    simp only [atIndex_get]
    simp [hcd]

theorem merged_nil {H : Hashes} {t u : Transaction} (h : Merged H t [] u) : u = t := by
  obtain ⟨h1, h2, h3, _, h5, _⟩ := h
  have h5 : u.inputs = t.inputs := List.ext_getElem? fun n => h5 n (by simp)
  cases u
  cases t
  simp_all

/-- C104. Calls one after the other succeed exactly if they are on different inputs and each of them would have succeeded
on the transaction as it was at the start; the result has the inputs that they would have made of it.  So the signers can
work on copies, and the signed inputs can be put together. -/
theorem C104_parallel (H : Hashes) (cs : List SignCall) (t u : Transaction) :
    signAll H cs t = .ok u ↔ (cs.map SignCall.index).Nodup ∧ Merged H t cs u := by
  induction cs generalizing t with
  | nil =>
    constructor
    · intro h
      cases h
      exact ⟨List.nodup_nil, rfl, rfl, rfl, rfl, fun _ _ => rfl, by simp⟩
    · rintro ⟨_, h⟩
      rw [merged_nil h]
      rfl
  | cons c cs ih =>
    rw [List.map_cons, List.nodup_cons]
    constructor
    · intro h
      unfold signAll at h
      cases hc : c.on H t with
      | error e => rw [hc] at h; cases h
      | ok v =>
        rw [hc] at h
        obtain ⟨hn, m⟩ := (ih v).1 h
        obtain ⟨a1, a2, a3, a4, a5, a6⟩ := C37_frame H _ t v _ _ _ hc
        have hne : ∀ d ∈ cs, d.index ≠ c.index := by
          intro d hd he
          obtain ⟨z, hz, _⟩ := m.signed d hd
          obtain ⟨e, hb⟩ := C40_signed_twice H c.signer d.signer t v c.keys d.keys c.index c.sigtype d.sigtype hc
          unfold SignCall.on at hz
          rw [he, hb] at hz
          cases hz
        refine ⟨⟨fun hm => ?_, hn⟩, m.version.trans a1, m.lockTime.trans a2, m.outputs.trans a3, m.length.trans a4, ?_, ?_⟩
        · obtain ⟨d, hd, he⟩ := List.mem_map.1 hm
          exact hne d hd he
        · intro n hno
          rw [m.others n fun d hd => hno d (by simp [hd]), a5 n (by have := hno c (by simp); omega)]
        · intro d hd
          rcases List.mem_cons.1 hd with rfl | hd
          · exact ⟨v, hc, m.others _ hne⟩
          · obtain ⟨z, hz, e⟩ := m.signed d hd
            obtain ⟨z', hz', e'⟩ := (on_other (hne d hd) hc).1 hz
            exact ⟨z', hz', e.trans e'⟩
    · rintro ⟨⟨hm, hn⟩, m⟩
      obtain ⟨v, hc, hu⟩ := m.signed c (by simp)
      obtain ⟨a1, a2, a3, a4, a5, a6⟩ := C37_frame H _ t v _ _ _ hc
      have hne : ∀ d ∈ cs, d.index ≠ c.index := fun d hd he => hm (List.mem_map.2 ⟨d, hd, he⟩)
      unfold signAll
      rw [hc]
      refine (ih v).2 ⟨hn, m.version.trans a1.symm, m.lockTime.trans a2.symm, m.outputs.trans a3.symm, m.length.trans a4.symm,
        ?_, ?_⟩
      · intro n hno
        by_cases hcn : c.index = n
        · subst hcn
          exact hu
        · rw [m.others n (by simpa [hcn] using hno), a5 n (by omega)]
      · intro d hd
        obtain ⟨z, hz, e⟩ := m.signed d (by simp [hd])
        obtain ⟨z', hz', e'⟩ := (on_other (hne d hd) hc).2 hz
        exact ⟨z', hz', e.trans e'⟩

/-- C104. The order of the calls does not matter. -/
theorem C104_order (H : Hashes) (cs ds : List SignCall) (hp : cs.Perm ds) (t u : Transaction) :
    signAll H cs t = .ok u ↔ signAll H ds t = .ok u := by
  rw [C104_parallel, C104_parallel, (hp.map _).nodup_iff]
  have key : ∀ {cs ds : List SignCall}, cs.Perm ds → Merged H t cs u → Merged H t ds u := fun hp m =>
    ⟨m.version, m.lockTime, m.outputs, m.length, fun n hn => m.others n fun c hc => hn c (hp.mem_iff.1 hc),
      fun c hc => m.signed c (hp.mem_iff.2 hc)⟩
  exact and_congr_right fun _ => ⟨key hp, key hp.symm⟩

/-- The input has a method to sign it. -/
def Input.Signable (x : Input) : Prop := x.cls ≠ .generic

instance (x : Input) : Decidable x.Signable := by unfold Input.Signable; infer_instance

theorem sign_signable {S : Signer} {x y : Input} {ks : List PrivateKey} {p : Bytes} {st : Int}
    (h : x.sign S ks p st = .ok y) : x.Signable := by
  intro hg
  unfold Input.sign at h
  rw [hg] at h
  cases h

theorem count_at {α : Type} (p : α → Bool) {xs ys : List α} (hl : ys.length = xs.length) {n : Nat} {x y : α}
    (hx : xs[n]? = some x) (hy : ys[n]? = some y) (he : ∀ k, k ≠ n → ys[k]? = xs[k]?) (px : p x = true) (py : p y = false) :
    ys.countP p + 1 = xs.countP p := by
  induction xs generalizing ys n with
  | nil => cases hx
  | cons x0 xs ih =>
    cases ys with
    | nil => cases hy
    | cons y0 ys =>
      cases n with
      | zero =>
        cases hx
        cases hy
        have e : ys = xs := List.ext_getElem? fun k => by simpa using he (k + 1) (by omega)
        simp [e, px, py]
      | succ n =>
        have e0 : y0 = x0 := by simpa using he 0 (by omega)
        have := ih (ys := ys) (by simpa using hl) (by simpa using hx) (by simpa using hy)
          fun k hk => by simpa using he (k + 1) (by omega)
        rw [e0, List.countP_cons, List.countP_cons]
        omega

/-- C104. Every call that succeeds takes one input that can be signed and leaves one that cannot: no input is signed
twice, and no more calls succeed than there are inputs to sign, in whatever order. -/
theorem C104_once (H : Hashes) (cs : List SignCall) (t u : Transaction) (h : signAll H cs t = .ok u) :
    (cs.map SignCall.index).Nodup ∧
    u.inputs.countP (fun x => x.Signable) + cs.length = t.inputs.countP (fun x => x.Signable) ∧
    ∀ c ∈ cs, ∃ x y, t.inputs[c.index]? = some x ∧ x.Signable ∧ u.inputs[c.index]? = some y ∧ ¬ y.Signable := by
  refine ⟨((C104_parallel H cs t u).1 h).1, ?_, ?_⟩
  · induction cs generalizing t with
    | nil => cases h; rfl
    | cons c cs ih =>
      unfold signAll at h
      cases hc : c.on H t with
      | error e => rw [hc] at h; cases h
      | ok v =>
        rw [hc] at h
        obtain ⟨_, _, _, a4, a5, a6⟩ := C37_frame H _ t v _ _ _ hc
        obtain ⟨x, y, p, hx, hy, _, hs, _, _, _, hg⟩ := a6 c.index rfl
        have := count_at (fun x => decide x.Signable) a4 hx hy (fun k hk => a5 k (by omega)) (by
          rw [decide_eq_true_iff]
          exact sign_signable hs) (by
          rw [decide_eq_false_iff_not]
          exact fun h => h hg)
        have := ih v h
        rw [List.length_cons]
        omega
  · intro c hc
    obtain ⟨v, hv, e⟩ := ((C104_parallel H cs t u).1 h).2.signed c hc
    obtain ⟨_, _, _, _, _, a6⟩ := C37_frame H _ t v _ _ _ hv
    obtain ⟨x, y, p, hx, hy, _, hs, _, _, _, hg⟩ := a6 c.index rfl
    exact ⟨x, y, hx, sign_signable hs, e.trans hy, fun h => h hg⟩

/-- C104. The input of each call is signed for the transaction as it was at the start. -/
theorem C104_digest (H : Hashes) (cs : List SignCall) (t u : Transaction) (h : signAll H cs t = .ok u) :
    ∀ c ∈ cs, ∃ x y p, t.inputs[c.index]? = some x ∧ u.inputs[c.index]? = some y ∧ t.payload H c.index c.sigtype = .ok p ∧
      x.sign c.signer c.keys p c.sigtype = .ok y := by
  intro c hc
  obtain ⟨v, hv, e⟩ := ((C104_parallel H cs t u).1 h).2.signed c hc
  obtain ⟨_, _, _, _, _, a6⟩ := C37_frame H _ t v _ _ _ hv
  obtain ⟨x, y, p, hx, hy, hp, hs, _⟩ := a6 c.index rfl
  exact ⟨x, y, p, hx, e.trans hy, hp, hs⟩

/-- Two script inputs, each signed once; a third call fails. -/
def twoCalls : List SignCall := [⟨fun _ _ m => .ok (m.take 3), [⟨1, .livenet, true⟩], 1, 1⟩,
  ⟨fun _ _ m => .ok (m.take 4), [⟨2, .livenet, true⟩], 0, 1⟩]

example : ∃ u, signAll .toy twoCalls ⟨scriptTx.inputs ++ scriptTx.inputs, [sampleOutput], 0, 1⟩ = .ok u ∧
    u.inputs.countP (fun x => x.Signable) = 0 ∧
    signAll .toy (twoCalls ++ twoCalls) ⟨scriptTx.inputs ++ scriptTx.inputs, [sampleOutput], 0, 1⟩ =
      .error .inUnknownSignatureMethod := by
  have key : (match signAll .toy twoCalls ⟨scriptTx.inputs ++ scriptTx.inputs, [sampleOutput], 0, 1⟩ with
    | .ok u => u.inputs.countP (fun x => x.Signable) == 0
    | .error _ => false) = true ∧
    signAll .toy (twoCalls ++ twoCalls) ⟨scriptTx.inputs ++ scriptTx.inputs, [sampleOutput], 0, 1⟩ =
      .error .inUnknownSignatureMethod := by decide +kernel
  obtain ⟨k1, k2⟩ := key
  cases h : signAll .toy twoCalls ⟨scriptTx.inputs ++ scriptTx.inputs, [sampleOutput], 0, 1⟩ with
  | error e => rw [h] at k1; cases k1
  | ok u => rw [h] at k1; exact ⟨u, rfl, by simpa using k1, k2⟩

end Bitforge
