import Verif.Xls20.Inv

/-!
# Properties of the XLS-20 bridge

C58 fee of a mint request, C129 deposits, C130 withdrawals, C131 backing, C132 the recorded XLS-20 ids, C133
decoding of token ids.
-/

namespace Verif.Xls20

open NftPeg (Ex)

/-! ## example worlds -/

/-- The limits of the runtime. -/
def cfg0 : Cfg := ⟨⟨1000000, 1000, 100, 999⟩, 2, 1000, 800⟩
/-- Collections of at most two tokens. -/
def cfg1 : Cfg := ⟨⟨2, 2, 100, 999⟩, 2, 1000, 800⟩

/-- Account 1 owns a million drops. -/
def g0 : World where
  st := {
    nft := {
      coll := fun _ => none
      locks := fun _ _ => none
      flags := fun _ => ⟨true, true, true⟩
      pubMint := fun _ => ⟨false, none⟩
      nextId := 0
      approvals := fun _ _ => none
      forAll := fun _ _ _ => false
      ledger := ⟨fun a x => if a = 2 ∧ x = 1 then 1000000 else 0, fun a => if a = 2 then 1000000 else 0⟩
      minted := [] }
    relayer := none
    fee := 0
    ids := fun _ _ => none
    colls := fun _ => none
    migrating := false
    requests := [] }
  door := fun _ => false
  offers := []
  seen := []

theorem g0_genesis : Genesis g0 :=
  ⟨⟨fun _ => rfl, rfl, fun _ _ => rfl, fun _ _ => rfl, fun _ _ _ => rfl, rfl⟩, fun _ _ => rfl, fun _ => rfl, rfl,
    fun _ => rfl, rfl, rfl⟩

/-- Run a list of operations; rejected ones change nothing. -/
def exec (c : Cfg) (w : World) : List Op → World
  | [] => w
  | op :: ops => exec c (match step c w op with | .ok w1 => w1 | .error _ => w) ops

/-- Decides `Env` for the operations of the examples. -/
def checkOp (w : World) : Op → Bool
  | .deposit _ t => !w.door t && w.seen.all (fun t' => decide (issuerOf t' = issuerOf t → seqOf t' = seqOf t → t' = t))
  | .fulfil _ id l => decide ((l.map Prod.snd).Nodup) && l.all (fun p => !w.door p.2) &&
      match w.st.nft.coll id with
      | some k => decide (k.origin = .root)
      | none => true
  | .nft (.createBridged _ _ _) => false
  | .nft (.bridgedMint _ _ _) => false
  | _ => true

def noMap : Op → Bool
  | .setMappings _ => false
  | _ => true

/-- Decides `Env` for every operation of a list. -/
def check (c : Cfg) (w : World) : List Op → Bool
  | [] => true
  | op :: ops => checkOp w op && check c ((step c w op).toOption.getD w) ops

theorem checkOp_env {w : World} {op : Op} (h : checkOp w op = true) : Env w op := by
  cases op with
  | deposit rcv t =>
    simp only [checkOp, Bool.and_eq_true, Bool.not_eq_true', List.all_eq_true, decide_eq_true_eq] at h
    exact h
  | fulfil who id l =>
    simp only [checkOp, Bool.and_eq_true, decide_eq_true_eq, List.all_eq_true, Bool.not_eq_true'] at h
    refine ⟨h.1.1, h.1.2, fun k hk => ?_⟩
    have h2 := h.2
    rw [hk] at h2
    simpa using h2
  | nft op => cases op <;> first | trivial | cases h
  | _ => trivial

theorem exec_env {c : Cfg} : ∀ (ops : List Op) {w : World}, Reach c Env w → check c w ops = true → Reach c Env (exec c w ops)
  | [], _, h, _ => h
  | op :: ops, w, h, hc => by
    simp only [check, Bool.and_eq_true] at hc
    unfold exec
    refine exec_env ops ?_ ?_
    · cases hs : step c w op with
      | ok w1 => exact h.step (checkOp_env hc.1) hs
      | error _ => exact h
    · cases hs : step c w op with
      | ok w1 => have := hc.2; rw [hs] at this; exact this
      | error _ => have := hc.2; rw [hs] at this; exact this

theorem exec_reach {c : Cfg} : ∀ (ops : List Op) {w : World}, Reach c NoRemap w → check c w ops = true →
    ops.all noMap = true → Reach c NoRemap (exec c w ops)
  | [], _, h, _, _ => h
  | op :: ops, w, h, hc, hn => by
    simp only [check, Bool.and_eq_true] at hc
    simp only [List.all_cons, Bool.and_eq_true] at hn
    unfold exec
    refine exec_reach ops ?_ ?_ hn.2
    · cases hs : step c w op with
      | ok w1 => exact h.step ⟨checkOp_env hc.1, fun l e => by rw [e] at hn; cases hn.1⟩ hs
      | error _ => exact h
    · cases hs : step c w op with
      | ok w1 => have := hc.2; rw [hs] at this; exact this
      | error _ => have := hc.2; rw [hs] at this; exact this

/-! ## C133: decoding of token ids -/

/-- A token id as the XRP ledger builds it (https://xrpl.org/docs/references/protocol/data-types/nftoken): 16 bits
of flags, 16 bits of transfer fee, 160 bits of issuer, the taxon scrambled with the sequence number, the sequence
number. -/
def xrplId (flags fee issuer taxon seq : Nat) : Nat :=
  flags * 2 ^ 240 + fee * 2 ^ 224 + issuer * 2 ^ 64 + (taxon ^^^ ((384160001 * seq + 2459) % 2 ^ 32)) * 2 ^ 32 + seq

theorem xor_cancel (a b : Nat) : (a ^^^ b) ^^^ b = a := by
  rw [Nat.xor_assoc, Nat.xor_self, Nat.xor_zero]

theorem scramble_mod (seq : Nat) : (384160001 * seq % 4294967296 + 2459) % 4294967296 = (384160001 * seq + 2459) % 2 ^ 32 := by
  omega

/-- C133: the id of a token of an issuer with a taxon and a sequence number is decoded to these. -/
theorem C133_decode {flags fee issuer taxon seq : Nat} (h2 : fee < 2 ^ 16) (h3 : issuer < 2 ^ 160)
    (h4 : taxon < 2 ^ 32) (h5 : seq < 2 ^ 32) :
    flagsOf (xrplId flags fee issuer taxon seq) = flags ∧ issuerOf (xrplId flags fee issuer taxon seq) = issuer ∧
      taxonOf (xrplId flags fee issuer taxon seq) = taxon ∧ seqOf (xrplId flags fee issuer taxon seq) = seq := by
  have hx : taxon ^^^ ((384160001 * seq + 2459) % 2 ^ 32) < 2 ^ 32 := Nat.xor_lt_two_pow h4 (Nat.mod_lt _ (by norm_num))
  have e1 : seqOf (xrplId flags fee issuer taxon seq) = seq := by
    unfold seqOf xrplId
    generalize taxon ^^^ ((384160001 * seq + 2459) % 2 ^ 32) = x at hx
    omega
  have e2 : scrambledOf (xrplId flags fee issuer taxon seq) = taxon ^^^ ((384160001 * seq + 2459) % 2 ^ 32) := by
    unfold scrambledOf xrplId
    generalize taxon ^^^ ((384160001 * seq + 2459) % 2 ^ 32) = x at hx
    omega
  refine ⟨?_, ?_, ?_, e1⟩
  · unfold flagsOf xrplId
    generalize taxon ^^^ ((384160001 * seq + 2459) % 2 ^ 32) = x at hx
    omega
  · unfold issuerOf xrplId
    generalize taxon ^^^ ((384160001 * seq + 2459) % 2 ^ 32) = x at hx
    omega
  · unfold taxonOf unscramble
    rw [e1, e2, scramble_mod, xor_cancel]

/-- The example of the XRPL documentation: taxon 146999694, sequence number 3429, transfer fee 3140, flags 11. -/
example : xrplId 11 3140 0x95F14B0E44F78A264E41713C64B5F89242540EE2 146999694 3429 =
    0x000B0C4495F14B0E44F78A264E41713C64B5F89242540EE2BC8B858E00000D65 := by decide +kernel

/-- C133: tokens of different issuers, or of an issuer with different taxons, are never in one collection. -/
theorem C133_collections_apart_partial {c : Cfg} {w : World} (h : Reach c NoRemap w) {p q : Nat × Nat} {id : Nat}
    (hp : w.st.colls p = some id) (hq : w.st.colls q = some id) : p = q := h.inv.maps.inj p q id hp hq

/-- C133 fails: root may map a second issuer and taxon to a collection already in use; the tokens of both then share it. -/
theorem C133_remap_refuted : ∃ (w : World) (p q : Nat × Nat) (id : Nat), Reach cfg0 Env w ∧ w.st.colls p = some id ∧
    w.st.colls q = some id ∧ p ≠ q :=
  ⟨exec cfg0 g0 [.setMappings [(100, (5, 6)), (100, (7, 8))]], (5, 6), (7, 8), 100,
    exec_env _ (.init g0_genesis) (by decide +kernel), by decide +kernel, by decide +kernel, by decide +kernel⟩

/-! ## C58: the fee -/

/-- The number of drops a request for `n` tokens should cost. -/
def dueFee (s : St) (n : Nat) : Nat := n * s.fee

theorem payFee_due {c : Cfg} {s : St} {L L' : Ledger} {who r : Acct} {n : Nat} (hr : s.relayer = some r)
    (hsmall : dueFee s n < 2 ^ 32) (hn : n ≠ 0) (hn32 : n < 2 ^ 32) (h : payFee c s L who n = .ok L') :
    dueFee s n ≤ L.bal c.asset who ∧ L'.iss = L.iss ∧ (∀ b, b ≠ c.asset → L'.bal b = L.bal b) ∧
    ∀ y, L'.bal c.asset y + (if y = who then dueFee s n else 0) = L.bal c.asset y + (if y = r then dueFee s n else 0) := by
  unfold payFee at h
  unfold dueFee at *
  split at h
  · rename_i h0
    cases h
    rw [h0, Nat.mul_zero]
    exact ⟨Nat.zero_le _, rfl, fun _ _ => rfl, fun y => by simp⟩
  · rw [hr] at h
    dsimp only at h
    have hf : s.fee < U32 := by
      have : 1 * s.fee ≤ n * s.fee := Nat.mul_le_mul_right _ (Nat.one_le_iff_ne_zero.mpr hn)
      unfold U32
      omega
    have e : min (min n (U32 - 1) * (s.fee % U32)) (U32 - 1) = n * s.fee := by
      rw [Nat.mod_eq_of_lt hf, Nat.min_eq_left (by unfold U32; omega : n ≤ U32 - 1),
        Nat.min_eq_left (by unfold U32; omega)]
    rw [e] at h
    exact Ledger.transfer_ok h

/-- C58 holds for a request by the owner of a collection whose total is below 2³² drops: the collection's owner
pays exactly `n` times the fee to the relayer, and no other balance changes. -/
theorem C58_re_request_partial {c : Cfg} {w w' : World} {who r : Acct} {id : Nat} {ns : List Nat}
    (hc : c.maxPerMint < 2 ^ 32) (hr : w.st.relayer = some r) (hsmall : ns.length * w.st.fee < 2 ^ 32)
    (hs : step c w (.reRequest who id ns) = .ok w') :
    w'.st.nft.ledger.iss = w.st.nft.ledger.iss ∧
    (∀ b, b ≠ c.asset → w'.st.nft.ledger.bal b = w.st.nft.ledger.bal b) ∧
    ∀ y, w'.st.nft.ledger.bal c.asset y + (if y = who then ns.length * w.st.fee else 0) =
      w.st.nft.ledger.bal c.asset y + (if y = r then ns.length * w.st.fee else 0) := by
  simp only [step, bind_ok, pure_ok] at hs
  obtain ⟨s1, hq, rfl⟩ := hs
  obtain ⟨h1, h2, _, L, hL, rfl⟩ := reRequest_ok hq
  exact (payFee_due hr hsmall (by rw [Ne, List.length_eq_zero_iff]; exact h2) (by omega) hL).2

/-- C58 holds for minting in an XLS-20 compatible collection by its owner, for totals below 2³² drops. -/
theorem C58_mint_partial {c : Cfg} {w w' : World} {who r : Acct} {id q : Nat} {rcv : Option Acct} {ext : Bool}
    {k : Nft.Coll} (hk : w.st.nft.coll id = some k) (hx : k.xls20 = true) (hown : k.owner = who)
    (hc : c.nft.mintLimit < 2 ^ 32) (hr : w.st.relayer = some r) (hsmall : q * w.st.fee < 2 ^ 32)
    (hs : step c w (.nft (.mint who id q rcv ext)) = .ok w') :
    w'.st.nft.ledger.iss = w.st.nft.ledger.iss ∧
    (∀ b, b ≠ c.asset → w'.st.nft.ledger.bal b = w.st.nft.ledger.bal b) ∧
    ∀ y, w'.st.nft.ledger.bal c.asset y + (if y = who then q * w.st.fee else 0) =
      w.st.nft.ledger.bal c.asset y + (if y = r then q * w.st.fee else 0) := by
  simp only [step, nftStep, mint, bind_ok, pure_ok, okOr_ok] at hs
  obtain ⟨s1, ⟨n, hn, k1, hk1, hq⟩, rfl⟩ := hs
  rw [hk] at hk1
  cases hk1
  rw [if_pos hx] at hq
  simp only [request, bind_ok, pure_ok, List.length_range'] at hq
  obtain ⟨L, hL, rfl⟩ := hq
  simp only [Nft.mint, Nft.preMint, Nft.doMint, bind_ok, ensure_ok, okOr_ok, pure_ok] at hn
  obtain ⟨_, hlim, _, _, k2, hk2, _, ⟨_, hpos, _, _, _, _, _, _, _, _, _, _, _, _, rfl⟩, L1, hL1, _, ⟨_, _, _, _, o, _, rfl⟩,
    _, _, rfl⟩ := hn
  rw [hk] at hk2
  cases hk2
  unfold Nft.maybeCharge at hL1
  rw [if_neg (fun h => h.2 hown)] at hL1
  cases hL1
  exact (payFee_due hr hsmall (by omega) (by omega) hL).2

/-- Nobody ever pays more than `n` times the fee. -/
theorem C58_never_more {c : Cfg} {s : St} {L L' : Ledger} {who : Acct} {n : Nat} (h : payFee c s L who n = .ok L') (y : Acct) :
    L.bal c.asset y ≤ L'.bal c.asset y + n * s.fee := by
  unfold payFee at h
  split at h
  · cases h; omega
  · split at h
    · cases h; omega
    · rename_i r _
      have h1 := (Ledger.transfer_ok h).2.2.2 y
      have h2 : min (min n (U32 - 1) * (s.fee % U32)) (U32 - 1) ≤ n * s.fee :=
        (Nat.min_le_left _ _).trans (Nat.mul_le_mul (Nat.min_le_left _ _) (Nat.mod_le _ _))
      revert h1
      split <;> split <;> intro h1 <;> omega

/-- A collection of account 1 with three tokens; the relayer is account 7 and the fee per token 40000 drops. -/
def priced (fee : Nat) : World := exec cfg0 g0
  [.setRelayer 7, .setFee fee, .nft (.create 1 0 none none none true), .nft (.mint 1 100 3 none true)]

/-- The case of `C58_mint_partial` and of `C58_re_request_partial`. -/
example : (priced 40000).st.nft.ledger.bal 2 7 = 120000 ∧ (priced 40000).st.nft.ledger.bal 2 1 = 880000 ∧
    (step cfg0 (priced 40000) (.reRequest 1 100 [0, 2])).isOk = true ∧
    (step cfg0 (priced 40000) (.nft (.mint 1 100 4 none true))).isOk = true ∧
    (priced 40000).st.requests = [(100, [0, 1, 2])] := by
  refine ⟨?_, ?_, ?_, ?_, ?_⟩ <;> decide +kernel

/-- C58 is false: with a fee of 2³² drops per token three tokens are minted and requested, and the relayer is paid
nothing. -/
theorem C58_refuted : ∃ w w' : World, Reach cfg0 NoRemap w ∧ w.st.relayer = some 7 ∧ w.st.fee = 4294967296 ∧
    step cfg0 w (.nft (.mint 1 100 3 none true)) = .ok w' ∧ w'.st.requests = [(100, [0, 1, 2])] ∧
    w'.st.nft.ledger.bal 2 7 = 0 := by
  refine ⟨exec cfg0 g0 [.setRelayer 7, .setFee 4294967296, .nft (.create 1 0 none none none true)], priced 4294967296,
    exec_reach _ (.init g0_genesis) (by decide +kernel) (by decide +kernel), by decide +kernel, by decide +kernel, ?_, ?_, ?_⟩
  · rw [ok_getD (d := g0) (x := step cfg0 _ _) (by decide +kernel)]
    rfl
  · decide +kernel
  · decide +kernel

end Verif.Xls20
