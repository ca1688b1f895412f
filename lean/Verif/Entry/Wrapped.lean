import Verif.Entry.Story

/-!
# C257: the events of calls made by XRPL messages, doughnuts and with fee preferences

Abbreviations as in `Model`: xr:480-485 `XRPLExtrinsicExecuted`, dn:503-507 `DoughnutCallExecuted`, fx/lib.rs:128
`CallWithFeePreferences`.
-/

namespace Verif.Entry

/-- `Event::XRPLExtrinsicExecuted` (xr:402-407), `Event::DoughnutCallExecuted` (dn:391-395). -/
inductive Told where
  | xrpl (key : XKey) (caller : Acct) (address : Nat) (call : Call)
  | doughnut (p : Payload) (call : Call) (ok : Bool)
deriving DecidableEq

/-- xr:436-487 `transact`: the event comes last; the address it names is the text in the message's field `Account`, for which the account
fields of the message stand here (`SignedPart.rest`). -/
def xTold (c : Cfg) (s : St) (m : Blob) (x : Call) : List Told :=
  match publicKey m.part.keyHex, xAccount c m, xTransact c s m x with
  | .ok key, .ok who, .ok _ => [.xrpl key who m.part.rest x]
  | _, _, _ => []

/-- The events of an XRPL message: as `xrplTx`, with the events in place of the last state. -/
def xrplTold (c : Cfg) (s : St) (m : Blob) (sig : Nat) (x : Call) : Except Err (List Told) := do
  let a ← xAccount c m
  let origin ← (if fpCall x = true then okOr (s.holder a) "Call" else pure a)
  let d ← xParams c s m sig x
  ensure (origin ≠ 0) "BadSigner"
  let s1 ← charge s (feePayer s origin x) (c.feeOf x + d.tip)
  let eoa ← (if fpCall x = true then okOr (s.owner origin) "BadProof" else pure origin)
  ensure (eoa ≠ 0) "BadProof"
  let s2 ← useNonce s1 eoa d.nonce
  pure (xTold c s2 m x)

/-- dn:449-510 `transact`: the event comes last, with the result of the call. -/
def dTold (c : Cfg) (s : St) (p : Payload) (x : Call) : List Told :=
  match c.dAcct p.dn.issuer, dTransact c s p x with
  | some iss, .ok _ => [.doughnut p x (dispatch c .doughnut x (.signed iss) s).isOk]
  | _, _ => []

/-- The events of a doughnut transaction: as `doughnutTx`, with the events in place of the last state. -/
def doughnutTold (c : Cfg) (s : St) (p : Payload) (n genesis tip sig : Nat) (x : Call) : Except Err (List Told) := do
  ensure (p.dn.notBefore ≤ s.block) "Premature"
  ensure (s.block < p.dn.expiry) "Expired"
  ensure (c.dVerify p.dn = true) "BadProof"
  let hol ← okOr (c.dAcct p.dn.holder) "BadSigner"
  ensure (c.hVerify p.dn.holder x p n genesis tip sig = true) "BadProof"
  let payer ← dPayer c s p genesis x
  ensure (hol ≠ 0) "BadSigner"
  let s1 ← useNonce s hol n
  let s2 ← charge s1 (feePayer s1 payer x) (c.feeOf x + tip)
  pure (dTold c s2 p x)

/-- fx/lib.rs:105-133: who is told to have named a token for the fee, by the calls nested in a call that succeeds; the event of an outer
call comes after those of the inner ones. -/
def feeTold (c : Cfg) (v : Via) : Call → Origin → St → List Acct
  | .sudoCall x, _, s => if (run c v x .root s).isOk then feeTold c v x .root s else []
  | .sudoAs a x, _, s => if (run c v x (.signed a) s).isOk then feeTold c v x (.signed a) s else []
  | .proxy fp x, _, s => if admitted s (.signed fp) x = true ∧ (run c v x (.signed fp) s).isOk then feeTold c v x (.signed fp) s else []
  | .feeProxy _ x, .signed w, s => feeTold c v x (.signed w) s ++ [w]
  | .batch _ x y, o, s =>
    if admitted s o x = true then
      match run c v x o s with
      | .ok s1 => feeTold c v x o s ++ (if admitted s1 o y = true ∧ (run c v y o s1).isOk then feeTold c v y o s1 else [])
      | .error _ => []
    else []
  | _, _, _ => []

/-- fx/impls.rs:69-72: the fee of a transaction is swapped for when its call itself, not one nested in it, asks for that. -/
def swaps : Call → Bool
  | .feeProxy _ _ => true
  | _ => false

/-! ## Proofs -/

/-- The state before the call differs from the one before the transaction in nonces and money only. -/
structure Paid (s s1 : St) : Prop where
  log : s1.log = s.log
  tables : picture s1 = picture s
  rest : s1.block = s.block ∧ s1.holder = s.holder ∧ s1.owner = s.owner ∧ s1.delegate = s.delegate ∧ s1.sudoKey = s.sudoKey

/-- **C257 (XRPL)** — an XRPL message that is included tells its event exactly if its call ran. The event then names the key that signed
the message, the account of that key, as which the call ran, and the call, whose hash is in the message. If nothing is told, nothing
happened but that the fee was paid and the nonce used. -/
theorem C257_xrpl {c : Cfg} {s s1 : St} {m : Blob} {sig : Nat} {x : Call} (h : step c s (.xrpl m sig x) = .ok s1) :
    ∃ s0 ts, xrplTold c s m sig x = .ok ts ∧ Paid s s0 ∧
    ((ts = [] ∧ s1 = s0 ∧ ∀ s', xTransact c s0 m x ≠ .ok s') ∨ ∃ key who d, ts = [.xrpl key who m.part.rest x] ∧ c.xAcct key = some who ∧ c.xVerify key m.part sig = true ∧
      extrinsicData m.part.memos = .ok d ∧ d.callHash = c.callHash x ∧ d.genesis = c.genesis ∧
      dispatch c .xrpl x (.signed who) s0 = .ok s1) := by
  have hs : xrplTx c s m sig x = .ok s1 := h
  simp only [xrplTx, bind_ok, ensure_ok, pure_ok] at hs
  obtain ⟨a, ha, origin, ho, d, hd, _, h0, s2, h2, eoa, he, _, h0', s3, h3, hs⟩ := hs
  obtain ⟨_, e2⟩ := charge_ok h2
  obtain ⟨_, e3⟩ := useNonce_ok h3
  obtain ⟨p1, p2, p3, _, _, key, p6, p7⟩ := xParams_ok hd
  have hk : c.xAcct key = some a := by
    have ha := ha
    unfold xAccount at ha
    simp only [p6, bind_ok, okOr_ok, Except.ok.injEq, exists_eq_left'] at ha
    exact ha
  refine ⟨s3, xTold c s3 m x, ?_, ?_, ?_⟩
  · simp only [xrplTold, bind_ok, ensure_ok, pure_ok]
    exact ⟨a, ha, origin, ho, d, hd, (), h0, s2, h2, eoa, he, (), h0', s3, h3, rfl⟩
  · subst e3
    subst e2
    exact ⟨rfl, rfl, rfl, rfl, rfl, rfl, rfl⟩
  · unfold xTold
    rw [p6, ha]
    cases hx : xTransact c s3 m x with
    | error e =>
      rw [hx] at hs
      exact .inl ⟨rfl, hs.symm, fun s' q => by cases q⟩
    | ok s4 =>
      rw [hx] at hs
      right
      obtain ⟨_, _, a', ha', hdisp⟩ := xTransact_ok hx
      cases ha.symm.trans ha'
      refine ⟨key, a, d, rfl, hk, p7, p1, p3.symm, p2, ?_⟩
      rw [hdisp, ← hs]
      rfl

/-- **C257 (doughnuts)** — a doughnut transaction that is included tells its event exactly if the doughnut passed all checks of its use. The
event tells whether the call succeeded. If it did, the transaction did what the call does for the issuer; if it did not, or if nothing is
told, nothing happened but that the fee was paid and the nonce used. -/
theorem C257_doughnut {c : Cfg} {s s1 : St} {p : Payload} {n g tip sig : Nat} {x : Call}
    (h : step c s (.doughnut p n g tip sig x) = .ok s1) : ∃ s0 ts, doughnutTold c s p n g tip sig x = .ok ts ∧ Paid s s0 ∧
    ((ts = [] ∧ s1 = s0 ∧ ∀ s', dTransact c s0 p x ≠ .ok s') ∨ ∃ iss hol b, ts = [.doughnut p x b] ∧ c.dAcct p.dn.issuer = some iss ∧
      c.dAcct p.dn.holder = some hol ∧ s.white hol = true ∧ s.revoked (c.keccak p) = false ∧ s.revokedHolder iss hol = false ∧
      ((b = true ∧ dispatch c .doughnut x (.signed iss) s0 = .ok s1) ∨
        (b = false ∧ s1 = s0 ∧ ∀ s', dispatch c .doughnut x (.signed iss) s0 ≠ .ok s'))) := by
  have hs : doughnutTx c s p n g tip sig x = .ok s1 := h
  simp only [doughnutTx, bind_ok, ensure_ok, okOr_ok, pure_ok] at hs
  obtain ⟨_, h1, _, h2, _, h3, hol, h4, _, h5, payer, h6, _, h7, s2, h8, s3, h9, hs⟩ := hs
  obtain ⟨_, e8⟩ := useNonce_ok h8
  obtain ⟨_, e9⟩ := charge_ok h9
  refine ⟨s3, dTold c s3 p x, ?_, ?_, ?_⟩
  · simp only [doughnutTold, bind_ok, ensure_ok, okOr_ok, pure_ok]
    exact ⟨(), h1, (), h2, (), h3, hol, h4, (), h5, payer, h6, (), h7, s2, h8, s3, h9, rfl⟩
  · subst e9
    subst e8
    exact ⟨rfl, rfl, rfl, rfl, rfl, rfl, rfl⟩
  · unfold dTold
    cases hx : dTransact c s3 p x with
    | error e =>
      rw [hx] at hs
      refine .inl ⟨?_, hs.symm, fun s' q => by cases q⟩
      cases c.dAcct p.dn.issuer <;> rfl
    | ok s4 =>
      rw [hx] at hs
      right
      obtain ⟨_, _, iss, hol', t, d1, d2, d3, d4, d5, _, _, _, d9⟩ := dTransact_ok hx
      have hw : s3.white = s.white ∧ s3.revoked = s.revoked ∧ s3.revokedHolder = s.revokedHolder := by
        subst e9
        subst e8
        exact ⟨rfl, rfl, rfl⟩
      rw [hw.1] at d3
      rw [hw.2.1] at d4
      rw [hw.2.2] at d5
      rw [d1]
      have e1 : s1 = s4 := hs.symm
      cases hc : dispatch c .doughnut x (.signed iss) s3 with
      | ok s5 =>
        refine ⟨iss, hol', true, by dsimp only; rw [hc]; rfl, rfl, d2, d3, d4, d5, .inl ⟨rfl, ?_⟩⟩
        rw [hc] at d9
        rw [hc, e1, d9]
        rfl
      | error e =>
        refine ⟨iss, hol', false, by dsimp only; rw [hc]; rfl, rfl, d2, d3, d4, d5, .inr ⟨rfl, ?_, fun s' q => by rw [hc] at q; cases q⟩⟩
        rw [hc] at d9
        rw [e1, d9]
        rfl

/-- How many calls with fee preferences a call contains. -/
def asks : Call → Nat
  | .sudoCall x => asks x
  | .sudoAs _ x => asks x
  | .proxy _ x => asks x
  | .feeProxy _ x => asks x + 1
  | .batch _ x y => asks x + asks y
  | _ => 0

/-- **C257 (fees, partial)** — no more is told of fees than was asked for: each event belongs to a nested call with fee preferences, so a
transaction without one tells none; and one whose own call is the only one and succeeds tells it once, of the signer. Missing: that the fee
is paid in the token told, which is false (`C257_fee_refuted`). -/
theorem C257_fee_partial {c : Cfg} {v : Via} {x : Call} : (∀ o s, (feeTold c v x o s).length ≤ asks x) ∧
    ∀ b w s, asks x = 0 → feeTold c v (.feeProxy b x) (.signed w) s = [w] := by
  have main : ∀ o s, (feeTold c v x o s).length ≤ asks x := by
    induction x with
    | sudoCall y ih =>
      intro o s
      simp only [feeTold, asks]
      split
      · exact ih _ _
      · exact Nat.zero_le _
    | sudoAs a y ih =>
      intro o s
      simp only [feeTold, asks]
      split
      · exact ih _ _
      · exact Nat.zero_le _
    | proxy fp y ih =>
      intro o s
      simp only [feeTold, asks]
      split
      · exact ih _ _
      · exact Nat.zero_le _
    | feeProxy b y ih =>
      intro o s
      cases o with
      | root => exact Nat.zero_le _
      | signed w =>
        simp only [feeTold, asks, List.length_append, List.length_cons, List.length_nil]
        have := ih (.signed w) s
        omega
    | batch all y z ihy ihz =>
      intro o s
      simp only [feeTold, asks]
      split
      · split
        · rename_i s1 _
          rw [List.length_append]
          have h1 := ihy o s
          have h2 := ihz o s1
          split
          · omega
          · rw [List.length_nil]
            omega
        · exact Nat.zero_le _
      · exact Nat.zero_le _
    | _ => intro o s; exact Nat.zero_le _
  refine ⟨main, fun b w s h0 => ?_⟩
  have h1 := main (.signed w) s
  rw [h0] at h1
  show feeTold c v x (.signed w) s ++ [w] = [w]
  rw [List.length_eq_zero_iff.mp (Nat.le_zero.mp h1)]
  rfl

/-- A proxied call with fee preferences in a batch. -/
example : feeTold Demo.cfg .signed (.batch false (.proxy 500 (.feeProxy false (.remark [1]))) (.feeProxy true (.remark [2]))) (.signed 30)
    (exec Demo.cfg Demo.s0 [.fpNew 13 500, .setDelegate 500 30 true]) = [500] := by decide +kernel

/-! ## What is told wrong -/

/-- **C257 is false** of the address: from one state the holder of one key gets any address they like told as the one whose message was
executed. -/
theorem C257_address_refuted : ∃ (c : Cfg) (k : Acct) (s : St) (m : Nat → Blob) (sig : Nat) (x : Call) (key : XKey) (who : Acct),
    Reach c k s ∧ ∀ r, publicKey (m r).part.keyHex = .ok key ∧ (∃ s1, step c s (.xrpl (m r) sig x) = .ok s1) ∧
      xrplTold c s (m r) sig x = .ok [.xrpl key who r x] := by
  refine ⟨Demo.cfg, 1, Demo.s0, fun r => ⟨{ (Demo.msg 3 0 50 0 102).part with rest := r }, 0⟩, 42, .remark [1, 2],
    .ec (2 :: List.replicate 31 0 ++ [3]), 13, Demo.reach_s0, fun r => ⟨?_, ?_, ?_⟩⟩
  · show publicKey (Demo.keyHex 3) = _
    decide +kernel
  · exact ⟨_, rfl⟩
  · rfl

/-- **C257 is false** of fees: a transaction is told to have named a token for its fee, and pays the fee in XRP. -/
theorem C257_fee_refuted : ∃ (c : Cfg) (k : Acct) (s s1 : St) (w : Acct) (x : Call), Reach c k s ∧ step c s (.signed w 0 0 x) = .ok s1 ∧
    feeTold c .signed x (.signed w) (begun s w 0 (feePayer s w x) (c.feeOf x)) = [w] ∧ swaps x = false ∧
    s1.funds w + c.feeOf x = s.funds w ∧ 0 < c.feeOf x := by
  refine ⟨Demo.cfg, 1, Demo.s0, _, 30, .batch true (.feeProxy false (.remark [1])) (.remark [2]), Demo.reach_s0,
    ok_getD (d := Demo.s0) ?_, ?_, rfl, ?_, ?_⟩ <;> decide +kernel

/-! ## Cases -/

/-- A message whose call runs, and one whose call fails. -/
example : (xrplTold Demo.cfg Demo.s0 (Demo.msg 3 0 50 0 102) 42 (.remark [1, 2])).toOption =
      some [.xrpl (.ec (2 :: List.replicate 31 0 ++ [3])) 13 0 (.remark [1, 2])] ∧
    (xrplTold Demo.cfg Demo.s0 (Demo.msg 3 0 50 0 5007) 42 (.transfer false 5 7 false)).toOption = some [] ∧
    (step Demo.cfg Demo.s0 (.xrpl (Demo.msg 3 0 50 0 5007) 42 (.transfer false 5 7 false))).isOk = true := by decide +kernel

/-- A doughnut used well, used for a call that fails, and used for what it does not permit. -/
example : (doughnutTold Demo.cfg Demo.sNut ⟨Demo.nut, []⟩ 0 7 0 9 (.transfer false 5 7 true)).toOption =
      some [.doughnut ⟨Demo.nut, []⟩ (.transfer false 5 7 true) true] ∧
    (doughnutTold Demo.cfg Demo.sNut ⟨Demo.nut, []⟩ 0 7 0 9 (.transfer false 5 7 false)).toOption =
      some [.doughnut ⟨Demo.nut, []⟩ (.transfer false 5 7 false) false] ∧
    (doughnutTold Demo.cfg Demo.sNut ⟨Demo.nut, []⟩ 0 7 0 9 (.transfer false 5 1001 true)).toOption = some [] ∧
    (step Demo.cfg Demo.sNut (.doughnut ⟨Demo.nut, []⟩ 0 7 0 9 (.transfer false 5 1001 true))).isOk = true := by decide +kernel

end Verif.Entry
