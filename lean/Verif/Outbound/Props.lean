import Verif.Outbound.History
import Verif.Outbound.Decode
import Verif.Erc20Peg.Props
import Verif.NftPeg.Props

/-!
# Properties of the messages between the pallets and Ethereum (C181–C185)
-/

namespace Verif.Outbound

open Verif Abi

/-! ## A concrete history -/

/-- The limits of the runtime; keys from 1000 on are no public keys. -/
def c0 : Cfg where
  bridge := 1001
  echo := 1002
  peg := 99
  nftPeg := 1004
  keyAddr := fun k => if k < 1000 then some (k + 5000) else none
  pegCfg := Erc20Peg.cfg0
  nftCfg := NftPeg.cfg0

theorem c0_ok : CfgOk c0 := by
  refine ⟨?_, ?_, ?_, ?_, ?_, ?_, ?_, ?_, ?_⟩
  iterate 8 decide +kernel
  intro k a h
  simp only [c0] at h
  split at h
  · cases h
    omega
  · cases h

def g0 : St where
  nextId := 0
  setId := 3
  manual := false
  change := false
  contract := 77
  pending := []
  sent := []
  session := 8
  peg := Erc20Peg.g0
  nft := NftPeg.g0.st
  taken := 0
  log := []

theorem g0_genesis : Genesis c0 g0 := by
  refine ⟨rfl, (by decide), (by decide), rfl, rfl, (by decide), rfl, rfl, Erc20Peg.g0_genesis, ?_, (by decide), (by decide),
    fun _ => rfl, fun _ => rfl, (by decide)⟩
  intro a t h
  simp only [g0, Erc20Peg.g0, upd_apply] at h
  split at h
  · cases h
    decide
  · cases h

/-- The state after trying an operation. -/
def after (c : Cfg) (s : St) (op : Op) : St :=
  match step c s op with
  | .ok s1 => s1
  | .error _ => s

/-- Run operations, ignoring failing ones. -/
def exec (c : Cfg) (s : St) : List Op → St
  | [] => s
  | op :: ops => exec c (after c s op) ops

/-- Every operation of the run satisfies `G`. -/
def Along (c : Cfg) (G : St → Op → Prop) (s : St) : List Op → Prop
  | [] => True
  | op :: ops => G s op ∧ Along c G (after c s op) ops

theorem exec_reach {c : Cfg} {G : St → Op → Prop} {g : St} : ∀ (ops : List Op) {s : St}, Reach c G g s →
    Along c G s ops → Reach c G g (exec c s ops)
  | [], _, h, _ => h
  | op :: ops, s, h, hg => by
    unfold exec
    refine exec_reach ops ?_ hg.2
    unfold after
    cases he : step c s op with
    | ok s' => exact .step h hg.1 he
    | error _ => exact h

/-- What the contract of the ERC-20 peg on Ethereum says of a deposit. -/
def depositData (t x b : Nat) : List Byte := layout (erc20Tys.items ((t, x, b, ()) : Nat × Nat × Nat × Unit))

/-- What the contract of the NFT peg on Ethereum says of a deposit. -/
def nftData (as : List Nat) (ids : List (List Nat)) (d : Nat) : List Byte :=
  layout (nftInTys.items ((1, as, ids, d, ()) : Nat × List Nat × List (List Nat) × Nat × Unit))

/-- A ping; a deposit of 70 of a token; 5 are withdrawn; two NFTs arrive, one is withdrawn; the validators change, and
meanwhile 6 of the token are withdrawn; the change is done, the delayed request is made, and Ethereum pings. -/
def demoOps : List Op :=
  [.ping 42 43, .event 10 99 (depositData 600 70 5), .peg (.withdraw 5 7268 5 77 false),
   .event 500 1004 (nftData [900] [[3, 4]] 6), .nftWithdraw 6 [100] [[4]] 66, .handover [1, 2],
   .peg (.withdraw 5 7268 6 78 false), .finalise, .drain 4,
   .event 44 1002 (echoMsg 1 9 45)]

def demo : St := exec c0 g0 demoOps

theorem out42 : Outsider c0 42 := by unfold Outsider; decide +kernel
theorem out10 : Outsider c0 10 := by unfold Outsider; decide +kernel
theorem out500 : Outsider c0 500 := by unfold Outsider; decide +kernel
theorem out44 : Outsider c0 44 := by unfold Outsider; decide +kernel

/-- Check one decoded deposit. -/
theorem of_decode {c : Cfg} {s : St} {src : Nat} {data : List Byte} {o : Option Erc20Peg.Dep} (h : decodeErc20 data = o)
    (hk : ∀ d ∈ o, Erc20Peg.Env c.pegCfg s.peg (.deposit src d)) :
    ∀ d, decodeErc20 data = some d → Erc20Peg.Env c.pegCfg s.peg (.deposit src d) := by
  intro d hd
  rw [h] at hd
  exact hk d hd

theorem demo_money : Along c0 (Money c0) g0 demoOps := by
  refine ⟨⟨⟨out42, ?_⟩, trivial⟩, ⟨⟨out10, ?_⟩, ?_⟩, ⟨?_, ?_⟩, ⟨⟨out500, ?_⟩, ?_⟩, ⟨⟨?_, ?_⟩, trivial⟩, ⟨trivial, trivial⟩,
    ⟨?_, ?_⟩, ⟨trivial, trivial⟩, ⟨trivial, trivial⟩, ⟨⟨out44, ?_⟩, ?_⟩, trivial⟩
  · decide +kernel
  · decide +kernel
  · refine of_decode (o := some ⟨600, 70, 5⟩) (by decide +kernel) ?_
    intro d hd
    cases hd
    decide +kernel
  · show (77 : Nat) < 2 ^ 160
    decide +kernel
  · decide +kernel
  · decide +kernel
  · refine of_decode (o := some ⟨1, 128, 192⟩) (by decide +kernel) ?_
    intro d hd
    cases hd
    decide +kernel
  · decide +kernel
  · decide +kernel
  · show (78 : Nat) < 2 ^ 160
    decide +kernel
  · decide +kernel
  · decide +kernel
  · refine of_decode (o := some ⟨1, 9, 45⟩) (by decide +kernel) ?_
    intro d hd
    cases hd
    decide +kernel

theorem demo_reach : Reach c0 (Money c0) g0 demo := exec_reach demoOps (.init g0_genesis) demo_money

theorem Reach.weaken {c : Cfg} {G H : St → Op → Prop} {g s : St} (hG : ∀ s op, G s op → H s op) (h : Reach c G g s) :
    Reach c H g s := by
  induction h with
  | init hg => exact .init hg
  | step _ hop he ih => exact .step ih (hG _ _ hop) he

theorem Reach.env {c : Cfg} {g s : St} (h : Reach c (Money c) g s) : Reach c (Env c) g s := h.weaken (fun _ _ x => x.1)

/-- A hash that has no collisions, for the examples. -/
theorem id_clean (s : St) (p : Req) : NoCollision id s p := fun _ _ h => h.1 h.2

/-! ## C181: what a signature of the validators binds -/

/-- **C181** — two requests whose parts are in range have the same digest only if they are the same in source, destination,
message, validator set and number, or the hash has a collision. -/
theorem C181_digest (keccak : List Byte → List Byte) {r p : Req} (hr : ReqFits r) (hp : ReqFits p)
    (h : r.digest keccak = p.digest keccak) : r = p ∨ Collide keccak r.encode p.encode := by
  by_cases he : r.encode = p.encode
  · exact .inl (encode_inj hr hp he)
  · exact .inr ⟨he, h⟩

/-- Non-vacuity: two requests that differ in the set only. -/
example : ReqFits ⟨1, 2, [3, 4], 5, 6⟩ ∧ ReqFits ⟨1, 2, [3, 4], 6, 6⟩ ∧
    Req.digest id ⟨1, 2, [3, 4], 5, 6⟩ ≠ Req.digest id ⟨1, 2, [3, 4], 6, 6⟩ :=
  ⟨⟨by decide, by decide, by decide, by decide, by decide⟩, ⟨by decide, by decide, by decide, by decide, by decide⟩,
    by decide +kernel⟩

/-- **C181** — in any history in which the counter has not gone round (2^64 messages), the requests validators are asked to
sign are in range and have different numbers; so two of them with the same digest are one, or the hash has a collision. -/
theorem C181_history (keccak : List Byte → List Byte) {c : Cfg} {g s : St} (hc : CfgOk c) (h : Reach c (Env c) g s)
    (ht : s.taken ≤ U64) : (∀ r ∈ s.sent, ReqFits r) ∧ (s.sent.map Req.id).Nodup ∧
      ∀ r ∈ s.sent, ∀ p ∈ s.sent, r.digest keccak = p.digest keccak → r = p ∨ Collide keccak r.encode p.encode := by
  have hg := (h.inv hc (fun _ _ x => x)).good
  refine ⟨fun r hr => sent_fits hc hg ht hr, ?_, ?_⟩
  · have := hg.ids_nodup ht
    rw [List.map_append] at this
    exact List.Nodup.of_append_left this
  · intro r hr p hp e
    exact C181_digest keccak (sent_fits hc hg ht hr) (sent_fits hc hg ht hp) e

/-- Non-vacuity: six requests, two of them after the change of validators. -/
example : Reach c0 (Env c0) g0 demo ∧ demo.taken ≤ U64 ∧
    demo.sent.map (fun r => (r.id, r.setId, r.source)) =
      [(5, 4, 44), (4, 4, 99), (3, 3, 1001), (2, 3, 1004), (1, 3, 99), (0, 3, 42)] :=
  ⟨demo_reach.env, by decide +kernel, by decide +kernel⟩

/-! ## C182: what contracts on Ethereum can be made to believe -/

/-- **C182** — whatever packages with different numbers are presented on Ethereum, each of them says what some operation of
the chain had to say, with the same source, destination and message, and different packages belong to different
statements. -/
theorem C182_packages (keccak : List Byte → List Byte) {c : Cfg} {g s : St} {acts : List Act} {deps : List Erc20Peg.Dep}
    (hc : CfgOk c) (h : Hist c (Env c) g s acts deps) (ht : s.taken ≤ U64) (ps : List Req)
    (hn : (ps.map Req.id).Nodup) (hp : ∀ p ∈ ps, Package keccak s p) :
    ∃ as : List Act, as.Subperm acts ∧
      ps.map (fun p => (p.source, p.destination, p.message)) = as.map (fun a => (a.source c, a.dest, a.message c)) := by
  have hg := (h.reach.inv hc (fun _ _ x => x)).good
  have hx : ∀ p : Req, ∃ a, p ∈ ps → (p.id, a) ∈ s.log ∧ p.source = a.source c ∧ p.destination = a.dest ∧
      p.message = a.message c := by
    intro p
    by_cases hm : p ∈ ps
    · obtain ⟨a, h1, _, _, h2, h3, h4⟩ := (hp p hm).act hc hg ht
      exact ⟨a, fun _ => ⟨h1, h2, h3, h4⟩⟩
    · exact ⟨.ping 0 0 0, fun k => absurd k hm⟩
  choose f hf using hx
  obtain ⟨_, h2⟩ := subperm_log (h.log hc) ps Req.id f hn (fun p hm => (hf p hm).1)
  refine ⟨ps.map f, h2, ?_⟩
  rw [List.map_map]
  refine List.map_congr_left ?_
  intro p hm
  obtain ⟨_, e1, e2, e3⟩ := hf p hm
  simp only [Function.comp_apply, e1, e2, e3]

/-- Non-vacuity: all six requests. -/
example : (demo.sent.map Req.id).Nodup ∧ demo.sent.length = 6 ∧ ∀ p ∈ demo.sent, Package id demo p :=
  ⟨by decide +kernel, by decide +kernel, fun p hp =>
    ⟨(C181_history id c0_ok demo_reach.env (by decide +kernel)).1 p hp, List.mem_map_of_mem hp, id_clean _ _⟩⟩

/-- **C182** — the withdrawals that packages from the address of the ERC-20 peg show are withdrawals the peg has sent, each
at most once. -/
theorem C182_erc20 (keccak : List Byte → List Byte) {c : Cfg} {g s : St} (hc : CfgOk c) (h : Reach c (Env c) g s)
    (ht : s.taken ≤ U64) (ps : List (Req × Erc20Peg.Wd)) (hn : (ps.map (fun x => x.1.id)).Nodup)
    (hp : ∀ x ∈ ps, Package keccak s x.1 ∧ x.1.source = c.peg ∧ WdFits x.2 ∧ x.1.message = erc20Msg x.2) :
    (ps.map (fun x => (x.1.destination, x.2))).Subperm s.peg.outbox := by
  have hi := h.inv hc (fun _ _ x => x)
  obtain ⟨acts, deps, hh⟩ := h.hist
  have hm : ∀ x ∈ ps, (x.1.id, Act.erc20 x.1.destination x.2) ∈ s.log := by
    intro x hx
    obtain ⟨k1, k2, k3, k4⟩ := hp x hx
    obtain ⟨a, h1, hf, ho, h2, h3, h4⟩ := k1.act hc hi.good ht
    rw [k2] at h2
    rw [k4] at h4
    cases a with
    | erc20 d w =>
      have hw : x.2 = w := erc20_inj k3 hf.2 h4
      rw [h3, hw]
      exact h1
    | nft m => exact absurd h2 hc.peg_nft
    | ping x y z => exact absurd h2.symm ho.2.2.1
    | pong x y z => exact absurd h2.symm ho.2.2.1
    | handover x y z => exact absurd h2.symm hc.bridge_peg
  have hs := (subperm_log (hh.log hc) ps (fun x => x.1.id) (fun x => .erc20 x.1.destination x.2) hn hm).1
  have hs2 := subperm_filterMap erc20Of hs
  rw [hi.out, List.filterMap_map] at hs2
  refine List.Subperm.trans ?_ hs2
  rw [← List.filterMap_eq_map]
  exact List.Subperm.refl _

/-- Non-vacuity: the two withdrawals of the history; nobody has presented the other one before. -/
example : demo.peg.outbox = [(10, ⟨600, 5, 77⟩), (10, ⟨600, 6, 78⟩)] ∧
    (⟨99, 10, erc20Msg ⟨600, 6, 78⟩, 4, 4⟩ : Req) ∈ demo.sent := ⟨by decide +kernel, by decide +kernel⟩

/-- **C182** — the withdrawals of NFTs that packages from the address of the NFT peg show are withdrawals of the history,
each at most once. -/
theorem C182_nft (keccak : List Byte → List Byte) {c : Cfg} {g s : St} {acts : List Act} {deps : List Erc20Peg.Dep}
    (hc : CfgOk c) (h : Hist c (Env c) g s acts deps) (ht : s.taken ≤ U64) (ps : List (Req × NftPeg.Msg))
    (hn : (ps.map (fun x => x.1.id)).Nodup)
    (hp : ∀ x ∈ ps, Package keccak s x.1 ∧ x.1.source = c.nftPeg ∧ MsgFits x.2 ∧ x.1.destination = x.2.contract ∧
      x.1.message = nftMsg x.2.groups x.2.dest) :
    (ps.map (fun x => Act.nft x.2)).Subperm acts := by
  have hi := h.reach.inv hc (fun _ _ x => x)
  refine (subperm_log (h.log hc) ps (fun x => x.1.id) (fun x => .nft x.2) hn ?_).2
  intro x hx
  obtain ⟨k1, k2, k3, k4, k5⟩ := hp x hx
  obtain ⟨a, h1, hf, ho, h2, h3, h4⟩ := k1.act hc hi.good ht
  have hlen : (nftMsg x.2.groups x.2.dest).length ≤ maxEthData := by
    rw [← k5]
    exact k1.fits.message
  rw [k2] at h2
  rw [k4] at h3
  rw [k5] at h4
  cases a with
  | erc20 d w => exact absurd h2.symm hc.peg_nft
  | nft m =>
    have hf : MsgFits m := hf
    have e := nft_inj (fun g hg => ⟨k3.addrs g hg, fun n hn => u32_256 (k3.ids g hg n hn)⟩)
      (fun g hg => ⟨hf.addrs g hg, fun n hn => u32_256 (hf.ids g hg n hn)⟩) k3.dest hf.dest hlen h4
    have : x.2 = m := by
      obtain ⟨c1, c2, c3⟩ := m
      obtain ⟨r, d1, d2, d3⟩ := x
      simp only at e h3 ⊢
      obtain ⟨e1, e2⟩ := e
      have h3' : d1 = c1 := h3
      rw [h3', e1, e2]
    rw [this]
    exact h1
  | ping x y z => exact absurd h2.symm ho.2.2.2
  | pong x y z => exact absurd h2.symm ho.2.2.2
  | handover x y z => exact absurd h2.symm hc.bridge_nft

/-- Non-vacuity: the withdrawal of NFT 4. -/
example : (⟨1004, 500, nftMsg [(900, [4])] 66, 3, 2⟩ : Req) ∈ demo.sent ∧ MsgFits ⟨500, [(900, [4])], 66⟩ :=
  ⟨by decide +kernel, by decide, by decide, by decide, by decide⟩

/-- **C182** — from end to end: of a bridged token, packages from the address of the peg can never show more than was there
at first plus what the peg's contracts on Ethereum announced as deposits. -/
theorem C182_paid (keccak : List Byte → List Byte) {c : Cfg} {g s : St} {acts : List Act} {deps : List Erc20Peg.Dep}
    (hc : CfgOk c) (h : Hist c (Money c) g s acts deps) (ht : s.taken ≤ U64) {t : Erc20Peg.Addr} {a : AssetId}
    (ha : s.peg.toAsset t = some a) (hne : a ≠ c.pegCfg.native) (ps : List (Req × Erc20Peg.Wd))
    (hn : (ps.map (fun x => x.1.id)).Nodup)
    (hp : ∀ x ∈ ps, Package keccak s x.1 ∧ x.1.source = c.peg ∧ WdFits x.2 ∧ x.1.message = erc20Msg x.2) :
    (ps.map (fun x => if x.2.token = t then x.2.amount else 0)).sum ≤
      g.peg.ledger.iss a + (deps.map (fun d => if d.token = t then d.amount else 0)).sum := by
  have h1 := C182_erc20 keccak hc h.reach.env ht ps hn hp
  have h2 := subperm_sum (subperm_map (fun m : Nat × Erc20Peg.Wd => if m.2.token = t then m.2.amount else 0) h1)
  rw [List.map_map] at h2
  obtain ⟨n, _, hb, _⟩ := Erc20Peg.C36_backed (h.reach.pegReach hc) ha hne
  have h3 : Erc20Peg.depositedOf s.peg t ≤ (deps.map (fun d => if d.token = t then d.amount else 0)).sum := by
    unfold Erc20Peg.depositedOf Erc20Peg.sumFor
    exact subperm_sum (subperm_map _ (h.accepted hc (fun _ _ x => x.1)).subperm)
  have h4 : (ps.map (fun x => if x.2.token = t then x.2.amount else 0)).sum ≤ Erc20Peg.sentOf s.peg t := h2
  omega

/-- Non-vacuity: 70 of token 600 were deposited, 5 and 6 withdrawn. -/
example : (∃ acts deps, Hist c0 (Money c0) g0 demo acts deps) ∧ demo.peg.toAsset 600 = some 7268 ∧
    (7268 : AssetId) ≠ c0.pegCfg.native ∧ g0.peg.ledger.iss 7268 = 0 ∧ Erc20Peg.sentOf demo.peg 600 = 11 ∧
    received c0 (exec c0 g0 (demoOps.take 1)) (.event 10 99 (depositData 600 70 5)) = [⟨600, 70, 5⟩] :=
  ⟨demo_reach.hist, by decide +kernel, by decide +kernel, by decide +kernel, by decide +kernel, by decide +kernel⟩

end Verif.Outbound
