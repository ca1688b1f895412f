import Verif.NftPeg.Inv

/-!
# Properties of the ERC-721 bridge
-/

namespace Verif.NftPeg

open Nft (Owns)

/-! ## specification -/

/-- What a receiver has of a deposited token: the token with the same id in the collection that stands for the
ERC-721 contract, or a record in their name. -/
def Given (s : St) (addr id : Nat) (who : Acct) : Prop :=
  (∃ coll, s.toRoot addr = some coll ∧ Nft.ownerOf s.nft coll id = some who) ∨
  ∃ i r, s.blocked i = some r ∧ r.dest = who ∧ s.toRoot addr = some r.coll ∧ id ∈ r.serials

/-- Limits of the pallet as the runtime sets them (/repo/runtime/src/lib.rs:1210-1231). -/
structure Cfg.Ok (c : Cfg) : Prop where
  serials : c.maxPerMint ≤ c.maxSerials
  tokens : c.maxPerMint ≤ c.nft.maxTokens

/-- One world later than another. -/
inductive Later (c : Cfg) (G : World → Op → Prop) (w : World) : World → Prop where
  | refl : Later c G w w
  | step {w1 w2 : World} {op : Op} : Later c G w w1 → G w1 op → step c w1 op = .ok w2 → Later c G w w2

theorem Reach.later {c : Cfg} {G : World → Op → Prop} {w w' : World} (h : Reach c G w) (hl : Later c G w w') :
    Reach c G w' := by
  induction hl with
  | refl => exact h
  | step _ hG hs ih => exact ih.step hG hs

/-! ## a concrete world -/

/-- The limits of the runtime. -/
def cfg0 : Cfg := ⟨⟨1000000, 1000, 100, 999⟩, 10, 50, 10, 50⟩
/-- Small collections. -/
def cfg1 : Cfg := ⟨⟨2, 2, 100, 999⟩, 10, 2, 10, 2⟩

def g0 : World where
  st := {
    nft := {
      coll := fun _ => none
      locks := fun _ _ => none
      flags := fun _ => ⟨true, true, true⟩
      pubMint := fun _ => ⟨false, none⟩
      nextId := 0
      approvals := fun _ _ => none
      forAll := fun _ _ _ => false
      ledger := ⟨fun _ _ => 0, fun _ => 0⟩
      minted := [] }
    contract := 500
    toRoot := fun _ => none
    toEth := fun _ => none
    blocked := fun _ => none
    nextBlocked := 0 }
  custody := fun _ _ => false
  pending := []

theorem genesis_g0 : Genesis g0 :=
  ⟨⟨fun _ => rfl, rfl, fun _ _ => rfl, fun _ _ => rfl, fun _ _ _ => rfl, rfl⟩, fun _ => rfl, fun _ => rfl,
    fun _ => rfl, fun _ _ => rfl, rfl⟩

/-- Run a list of operations; rejected ones change nothing. -/
def exec (c : Cfg) (w : World) : List Op → World
  | [] => w
  | op :: ops => exec c ((step c w op).toOption.getD w) ops

/-- `NoWrap`, for the operations used in examples. -/
def checkOp (w : World) : Op → Bool
  | .deposit e => decide e.toks.Nodup && decide (∀ p ∈ e.toks, w.custody p.1 p.2 = false)
  | .nft (.createBridged ..) => false
  | .nft (.bridgedMint ..) => false
  | _ => true

def check (c : Cfg) (w : World) : List Op → Bool
  | [] => true
  | op :: ops => checkOp w op && decide (w.st.nextBlocked + 1 < U32) && check c ((step c w op).toOption.getD w) ops

theorem checkOp_env {w : World} {op : Op} (h : checkOp w op = true) : Env w op := by
  cases op with
  | deposit e =>
    simp only [checkOp, Bool.and_eq_true, decide_eq_true_eq] at h
    exact h
  | nft op => cases op <;> first | trivial | cases h
  | _ => trivial

theorem exec_reach {c : Cfg} : ∀ (ops : List Op) {w : World}, Reach c NoWrap w → check c w ops = true →
    Reach c NoWrap (exec c w ops)
  | [], _, h, _ => h
  | op :: ops, w, h, hc => by
    simp only [check, Bool.and_eq_true, decide_eq_true_eq] at hc
    unfold exec
    refine exec_reach ops ?_ hc.2
    cases hs : step c w op with
    | ok w1 => exact h.step ⟨checkOp_env hc.1.1, hc.1.2⟩ hs
    | error _ => exact h

theorem Reach.env {c : Cfg} {w : World} (h : Reach c NoWrap w) : Reach c Env w := h.mono (fun _ _ h => h.1)

/-! ## C60: deposits -/

theorem trim_length_le (k : Nft.Coll) (ns : List Nat) : (Nft.trim k ns).length ≤ ns.length := by
  unfold Nft.trim
  exact (List.length_filter_le _ _).trans ((List.dedup_sublist _).length_le.trans
    (le_of_eq (List.length_insertionSort _ _)))

/-- `who` owns the token with this id in the collection of the contract. -/
def Got (s : St) (addr id : Nat) (who : Acct) : Prop :=
  ∃ coll k, s.toRoot addr = some coll ∧ s.nft.coll coll = some k ∧ Owns k.owned who id

theorem Got.given {c : Cfg} {s : St} (hm : Maps c s) {addr id : Nat} {who : Acct} (h : Got s addr id who) :
    Given s addr id who := by
  obtain ⟨coll, k, h1, h2, h3⟩ := h
  refine Or.inl ⟨coll, h1, ?_⟩
  rw [Nft.ownerOf_some h2]
  exact (Nft.getOwner_iff (hm.nft.bi.coll coll k h2).uniq).mpr h3

/-- Tokens given stay with a later deposit. -/
theorem Got.group {c : Cfg} {s : St} (hm : Maps c s) {addr id : Nat} {who dest : Acct} {g : Nat × List Nat}
    (h : Got s addr id who) : Got (depositGroup c s dest g).1 addr id who := by
  obtain ⟨coll, k, h1, h2, h3⟩ := h
  unfold depositGroup
  cases hc : collFor c s g.1 dest with
  | error e => exact ⟨coll, k, h1, h2, h3⟩
  | ok r =>
    obtain ⟨s1, j⟩ := r
    obtain ⟨hm1, hroot, heth, _, _, _, hex, _, _, hrt, _⟩ := collFor_ok hm hc
    have h1' := hrt addr coll h1
    have hk1 : ∃ k1, s1.nft.coll coll = some k1 ∧ Owns k1.owned who id := by
      unfold collFor at hc
      split at hc
      · cases hc; exact ⟨k, h2, h3⟩
      · simp only [bind_ok, pure_ok, Prod.mk.injEq] at hc
        obtain ⟨id', hid, n, hn, rfl, rfl⟩ := hc
        obtain ⟨huuid, hcoll⟩ := create_ok hn hid
        have hne : coll ≠ id' := by
          rintro rfl
          rw [hm.nft.ai.fresh huuid] at h2
          cases h2
        exact ⟨k, by show n.coll coll = _; rw [hcoll, upd_ne _ _ hne, h2], h3⟩
    obtain ⟨k1, hk1, hk2⟩ := hk1
    dsimp only
    cases hmint : Nft.bridgedMint c.nft s1.nft j dest g.2 with
    | ok n' =>
      obtain ⟨kj, hkj, _⟩ := hm1.coll heth
      obtain ⟨k', hk', _, _, hoth, _, hkeep⟩ := bridgedMint_ok hkj hmint
      by_cases hj : coll = j
      · subst hj
        rw [hkj] at hk1
        cases hk1
        exact ⟨coll, k', h1', hk', hkeep _ _ hk2⟩
      · exact ⟨coll, k1, h1', by rw [← hk1]; exact hoth coll hj, hk2⟩
    | error e =>
      dsimp only
      unfold block
      split
      · exact ⟨coll, k1, h1', hk1, hk2⟩
      · exact ⟨coll, k1, h1', hk1, hk2⟩

theorem Got.deposit {c : Cfg} {addr id : Nat} {who dest : Acct} : ∀ (gs : List (Nat × List Nat)) {s : St},
    Maps c s → Got s addr id who → Got (doDeposit c dest s gs).1 addr id who
  | [], _, _, h => h
  | g :: gs, s, hm, h => by
    unfold doDeposit
    have hg := h.group (dest := dest) (g := g) hm
    have hmg := hm.group (dest := dest) (g := g)
    cases hd : depositGroup c s dest g with
    | mk s1 o =>
      rw [hd] at hg hmg
      cases o with
      | none => exact Got.deposit gs hmg hg
      | some e => exact hg

/-- One group of tokens. -/
theorem group_given {c : Cfg} {s : St} (hc : c.Ok) (hm : Maps c s) {dest : Acct} {g : Nat × List Nat}
    (hlen : g.2.length ≤ c.maxPerMint)
    (hnew : ∀ n ∈ g.2, ∀ id, s.toEth id = some g.1 → ¬ Ex s.nft id n) :
    ((depositGroup c s dest g).2 = none → ∀ n ∈ g.2, Got (depositGroup c s dest g).1 g.1 n dest) ∧
    (∀ s1 id, collFor c s g.1 dest = .ok (s1, id) → ∀ n ∈ g.2, Given (depositGroup c s dest g).1 g.1 n dest) := by
  unfold depositGroup
  cases hcf : collFor c s g.1 dest with
  | error e => exact ⟨fun h => (nomatch h), fun _ _ h => (nomatch h)⟩
  | ok r =>
    obtain ⟨s1, id⟩ := r
    obtain ⟨hm1, hroot, heth, _, _, _, hex, hte, _, _, _⟩ := collFor_ok hm hcf
    obtain ⟨k, hk, _⟩ := hm1.coll heth
    dsimp only
    cases hmint : Nft.bridgedMint c.nft s1.nft id dest g.2 with
    | ok n' =>
      obtain ⟨k', hk', _, _, _, hgive, _⟩ := bridgedMint_ok hk hmint
      have hgot : ∀ n ∈ g.2, Got { s1 with nft := n' } g.1 n dest := by
        intro n hn
        refine ⟨id, k', hroot, hk', hgive ?_ n hn ?_⟩
        · exact (trim_length_le k g.2).trans (hlen.trans hc.tokens)
        · intro b hb
          have hx : Ex s1.nft id n := ⟨k, hk, b, hb⟩
          rcases hte id g.1 heth with h1 | ⟨_, _, h1⟩
          · exact hnew n hn id h1 ((hex id n).mp hx)
          · exact h1 n hx
      exact ⟨fun _ => hgot, fun _ _ _ n hn => (hgot n hn).given (hm1.mint heth hmint)⟩
    | error e =>
      refine ⟨fun h => (nomatch h), fun _ _ _ n hn => Or.inr ⟨s1.nextBlocked, ⟨id, dest, g.2⟩, ?_, rfl, ?_, hn⟩⟩
      · dsimp only
        unfold block
        rw [if_pos (hlen.trans hc.serials)]
        exact upd_same _ _ _
      · dsimp only
        unfold block
        split <;> exact hroot

theorem deposit_given {c : Cfg} (hc : c.Ok) {dest : Acct} {P : List (Nat × Nat)} :
    ∀ (gs : List (Nat × List Nat)) {s : St} {C : Nat → Nat → Bool}, Safe s C P → Maps c s →
    (∀ g ∈ gs, g.2.length ≤ c.maxPerMint) → (∀ p ∈ toks gs, p.2 < Lim) →
    (∀ p ∈ toks gs, p.2 < Lim → C p.1 p.2 = false ∧ (toks gs).count p = 1) →
    (doDeposit c dest s gs).2 = none → ∀ p ∈ toks gs, Got (doDeposit c dest s gs).1 p.1 p.2 dest
  | [], _, _, _, _, _, _, _, _, _, hp => (nomatch hp)
  | g :: gs, s, C, h, hm, hlen, hsmall, hg, hok, p, hp => by
    rw [toks_cons] at hg hp hsmall
    have hgrp : ∀ n ∈ g.2, n < Lim → C g.1 n = false ∧ g.2.count n = 1 := by
      intro n hn hl
      have hin : (g.1, n) ∈ toks [g] := mem_toks_one.mpr ⟨rfl, hn⟩
      obtain ⟨h2, h3⟩ := hg (g.1, n) (List.mem_append_left _ hin) hl
      refine ⟨h2, ?_⟩
      rw [List.count_append, count_toks_one] at h3
      have : 0 < g.2.count n := List.count_pos_iff.mpr hn
      omega
    have h1 := h.group (dest := dest) (g := g) hm hgrp
    have hm1 := hm.group (dest := dest) (g := g)
    have hgg := (group_given (dest := dest) hc hm (hlen g (List.mem_cons_self ..)) (by
      intro n hn id he hx
      have hl := hsmall (g.1, n) (List.mem_append_left _ (mem_toks_one.mpr ⟨rfl, hn⟩))
      have := h.ex id g.1 n hl he hx
      rw [(hgrp n hn hl).1] at this
      cases this)).1
    unfold doDeposit at hok ⊢
    cases hd : depositGroup c s dest g with
    | mk s1 o =>
      rw [hd] at h1 hm1 hgg hok
      cases o with
      | none =>
        dsimp only at hok ⊢
        rcases List.mem_append.mp hp with hp | hp
        · obtain ⟨e1, e2⟩ := (mem_toks_one (a := p.1) (n := p.2)).mp hp
          rw [e1]
          exact (hgg rfl p.2 e2).deposit gs hm1
        · exact deposit_given hc gs h1 hm1 (fun g' hg' => hlen g' (List.mem_cons_of_mem _ hg'))
            (fun q hq => hsmall q (List.mem_append_right _ hq)) (by
              intro q hq hl
              obtain ⟨h2, h3⟩ := hg q (List.mem_append_right _ hq) hl
              have hc : 0 < (toks gs).count q := List.count_pos_iff.mpr hq
              rw [List.count_append] at h3
              have h0 : (toks [g]).count q = 0 := by omega
              refine ⟨?_, by omega⟩
              rw [setCustody_not (List.count_eq_zero.mp h0)]
              exact h2) hok p hp
      | some e => cases hok

theorem seen_small {gs : List (Nat × List Nat)} (h : ∀ p ∈ toks gs, p.2 < Lim) : seen gs = gs := by
  unfold seen
  conv_rhs => rw [← List.map_id gs]
  refine List.map_congr_left ?_
  intro g hg
  have : g.2.map serialOf = g.2 := by
    conv_rhs => rw [← List.map_id g.2]
    refine List.map_congr_left ?_
    intro n hn
    have hl : n < Lim := h (g.1, n) (mem_toks.mpr ⟨g, hg, rfl, hn⟩)
    show serialOf n = n
    unfold serialOf U32
    unfold Lim at hl
    omega
  rw [this]
  rfl

/-- **C60** (part). After a deposit that is processed without error, and whose ids are below 2³² − 1, the
receiver has every token of it. -/
theorem C60_deposit_partial {c : Cfg} {w w' : World} (hc : c.Ok) (h : Reach c Env w) {addrs : List Nat}
    {ids : List (List Nat)} {dest : Acct} (hE : Env w (.deposit (.deposit (some (addrs, ids, dest)))))
    (hsmall : ∀ l ∈ ids, ∀ n ∈ l, n < 4294967295)
    (hs : step c w (.deposit (.deposit (some (addrs, ids, dest)))) = .ok w')
    (hok : (onEvent c w.st (.deposit (some (addrs, ids, dest)))).2 = none) {a : Nat} {l : List Nat} {n : Nat}
    (ha : (a, l) ∈ addrs.zip ids) (hn : n ∈ l) :
    ∃ coll, w'.st.toRoot a = some coll ∧ Nft.ownerOf w'.st.nft coll n = some dest := by
  have hi := h.inv
  have hpre : ∀ p ∈ toks (addrs.zip ids), p.2 < Lim := by
    intro p hp
    obtain ⟨g, hg, _, h2⟩ := mem_toks.mp hp
    exact hsmall g.2 (List.of_mem_zip (a := g.1) (b := g.2) hg).2 p.2 h2
  cases hs
  dsimp only
  unfold onEvent at hok ⊢
  cases hd : decode c addrs ids with
  | error e =>
    dsimp only at hok
    rw [hd] at hok
    cases hok
  | ok gs =>
    obtain ⟨_, _, hlen, rfl⟩ := decode_ok hd
    dsimp only at hok ⊢
    rw [hd] at hok ⊢
    dsimp only at hok ⊢
    rw [seen_small hpre] at hok ⊢
    have hg := deposit_given hc (addrs.zip ids) hi.safe hi.maps (dest := dest)
      (fun g hg => hlen g.2 (List.of_mem_zip (a := g.1) (b := g.2) hg).2) hpre
      (fun p hp _ => ⟨hE.2 p hp, List.count_eq_one_of_mem hE.1 hp⟩) hok (a, n)
      (mem_toks.mpr ⟨(a, l), ha, rfl, hn⟩)
    obtain ⟨coll, k, h1, h2, h3⟩ := hg
    refine ⟨coll, h1, ?_⟩
    rw [Nft.ownerOf_some h2]
    exact (Nft.getOwner_iff ((hi.maps.deposit _).nft.bi.coll coll k h2).uniq).mpr h3

/-- **C60** (part). After a deposit of tokens of one ERC-721 contract with ids below 2³² − 1, processed with or
without error, the receiver has every token of it or a record of it in their name. -/
theorem C60_one_contract_partial {c : Cfg} {w w' : World} (hc : c.Ok) (h : Reach c Env w) {a : Nat}
    {l : List Nat} {dest : Acct} (hE : Env w (.deposit (.deposit (some ([a], [l], dest)))))
    (hsmall : ∀ n ∈ l, n < 4294967295) (hlen : l.length ≤ c.maxPerMint) (hadr : 1 ≤ c.maxAddresses)
    (hid : w.st.toRoot a ≠ none ∨ Nft.nextAssetUuid w.st.nft.nextId c.nft.chainId ≠ none)
    (hs : step c w (.deposit (.deposit (some ([a], [l], dest)))) = .ok w') :
    ∀ n ∈ l, Given w'.st a n dest := by
  have hi := h.inv
  have hd : decode c [a] [l] = .ok [(a, l)] := by
    have h1 : decode c [a] [l] = .ok (seen [(a, l)]) := by
      unfold decode
      rw [ensure_pos (p := [a].length ≤ c.maxAddresses) hadr,
        ensure_pos (p := ∀ x ∈ [l], x.length ≤ c.maxPerMint) (by
          intro x hx; rw [List.mem_singleton] at hx; rw [hx]; exact hlen),
        ensure_pos (p := [l].length ≤ c.maxAddresses) hadr,
        ensure_pos (p := [a].length = [l].length) rfl]
      rfl
    rw [h1, seen_small]
    intro p hp
    obtain ⟨g, hg, _, h2⟩ := mem_toks.mp hp
    rw [List.mem_singleton] at hg
    subst hg
    exact hsmall p.2 h2
  have hcf : ∃ s1 id, collFor c w.st a dest = .ok (s1, id) := by
    unfold collFor
    cases hr : w.st.toRoot a with
    | some id => exact ⟨_, _, rfl⟩
    | none =>
      dsimp only
      rcases hid with hid | hid
      · exact absurd hr hid
      · cases hu : Nft.nextAssetUuid w.st.nft.nextId c.nft.chainId with
        | none => exact absurd hu hid
        | some id =>
          have h1 : Nft.nextUuid c.nft w.st.nft = .ok id := by
            unfold Nft.nextUuid
            rw [hu]
            rfl
          rw [create_eq]
          simp only [Nft.step, Nft.doCreate, Nft.firstOwned, h1, if_true]
          rw [ensure_pos (p := Nft.Chain.ethereum ≠ Nft.Chain.root) (by decide)]
          exact ⟨_, _, rfl⟩
  obtain ⟨s1, id, hcf⟩ := hcf
  cases hs
  intro n hn
  have hg := (group_given (dest := dest) (g := (a, l)) hc hi.maps hlen (by
    intro m hm j he hx
    have := hi.safe.ex j a m (hsmall m hm) he hx
    rw [hE.2 (a, m) (mem_toks.mpr ⟨(a, l), by simp, rfl, hm⟩)] at this
    cases this)).2 s1 id hcf n hn
  dsimp only
  unfold onEvent
  dsimp only
  rw [hd]
  dsimp only
  unfold doDeposit
  cases hdg : depositGroup c w.st dest (a, l) with
  | mk s2 o =>
    rw [hdg] at hg
    cases o with
    | none => exact hg
    | some e => exact hg

end Verif.NftPeg
