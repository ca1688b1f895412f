import Verif.NftPeg.Settings

/-!
# C250: what readers of the events of the NFT bridge know
-/

namespace Verif.NftPeg

/-- lib.rs:120-148 `Event`. -/
inductive Said where
  /-- `Erc721Deposit` -/
  | deposited (dest : Acct)
  /-- `Erc721Mint` -/
  | minted (id : Nat) (ns : List Nat) (owner : Acct)
  /-- `ERC721Blocked` -/
  | blocked (b : Nat) (r : Blocked)
  /-- `Erc721Withdraw` -/
  | withdrawn (who : Acct) (colls : List Nat) (serials : List (List Nat)) (dest : Nat)
  /-- `ContractAddressSet` -/
  | contract (a : Nat)
deriving DecidableEq

/-! ## the events of the calls -/

/-- lib.rs:296-389: one round of the loop of `do_deposit`. -/
def groupEvs (c : Cfg) (s : St) (dest : Acct) (g : Nat × List Nat) : List Said :=
  match collFor c s g.1 dest with
  | .error _ => []
  | .ok (s1, id) =>
    match Nft.bridgedMint c.nft s1.nft id dest g.2 with
    | .ok _ => [.minted id g.2 dest]
    | .error _ => if g.2.length ≤ c.maxSerials then [.blocked s1.nextBlocked ⟨id, dest, g.2⟩] else []

/-- lib.rs:290-394 `do_deposit`. -/
def depositEvs (c : Cfg) (dest : Acct) : St → List (Nat × List Nat) → List Said
  | _, [] => [.deposited dest]
  | s, g :: gs => groupEvs c s dest g ++
    match depositGroup c s dest g with
    | (s1, none) => depositEvs c dest s1 gs
    | _ => []

/-- lib.rs:496-519 `on_event`. -/
def onEvs (c : Cfg) (s : St) : Event → List Said
  | .deposit (some (addrs, ids, dest)) =>
    match decode c addrs ids with
    | .error _ => []
    | .ok gs => depositEvs c dest s gs
  | _ => []

/-- The events of an operation that succeeds; lib.rs:155-162, 458-463. -/
def evs (c : Cfg) (s : St) : Op → List Said
  | .deposit e => onEvs c s e
  | .withdraw who colls serials dest _ => [.withdrawn who colls serials dest]
  | .reclaim who b dest _ =>
    match s.blocked b with
    | none => []
    | some r => [.withdrawn who [r.coll] [r.serials] dest]
  | .setContract a => [.contract a]
  | .nft _ => []
  | .deliver _ => []

/-- What the chain tells of an operation: a failing one leaves no event. -/
def tell (c : Cfg) (w : World) (op : Op) : List Said :=
  match step c w op with
  | .ok _ => evs c w.st op
  | .error _ => []

/-- The events of a history. -/
def story (c : Cfg) : World → List Op → List Said
  | _, [] => []
  | w, op :: ops => tell c w op ++ story c (next c w op) ops

/-! ## the reader -/

/-- What a reader writes down: the contract and the records of blocked tokens. -/
structure Page where
  contract : Nat
  records : Nat → Option Blocked

/-- Reading an event, with no knowledge of the pallet. -/
def Page.read (p : Page) : Said → Page
  | .contract a => { p with contract := a }
  | .blocked b r => { p with records := upd p.records b (some r) }
  | _ => p

def Page.follow (p : Page) (l : List Said) : Page := l.foldl Page.read p

/-- What is stored. -/
def view (s : St) : Page := ⟨s.contract, s.blocked⟩

/-- The page has the contract, and all records that can still be reclaimed. -/
def Knows (p : Page) (s : St) : Prop := p.contract = s.contract ∧ ∀ b r, s.blocked b = some r → p.records b = some r

theorem follow_append (p : Page) (a b : List Said) : p.follow (a ++ b) = (p.follow a).follow b := List.foldl_append

theorem collFor_records {c : Cfg} {s s1 : St} {a id : Nat} {dest : Acct} (h : collFor c s a dest = .ok (s1, id)) :
    s1.contract = s.contract ∧ s1.blocked = s.blocked ∧ s1.nextBlocked = s.nextBlocked := by
  unfold collFor at h
  split at h
  · cases h; exact ⟨rfl, rfl, rfl⟩
  · simp only [bind_ok, pure_ok] at h
    obtain ⟨_, _, _, _, h⟩ := h
    cases h
    exact ⟨rfl, rfl, rfl⟩

theorem group_knows {c : Cfg} {s : St} {dest : Acct} {g : Nat × List Nat} {p : Page} (h : Knows p s) :
    Knows (p.follow (groupEvs c s dest g)) (depositGroup c s dest g).1 := by
  unfold groupEvs depositGroup
  cases hc : collFor c s g.1 dest with
  | error e => exact h
  | ok r =>
    obtain ⟨s1, id⟩ := r
    obtain ⟨e1, e2, _⟩ := collFor_records hc
    have h1 : Knows p s1 := ⟨h.1.trans e1.symm, fun b r hb => h.2 b r (by rw [← e2]; exact hb)⟩
    dsimp only
    cases hm : Nft.bridgedMint c.nft s1.nft id dest g.2 with
    | ok n => exact h1
    | error e =>
      dsimp only
      unfold block
      split
      · refine ⟨h1.1, fun b r hb => ?_⟩
        change upd s1.blocked _ _ b = some r at hb
        show upd p.records _ _ b = some r
        by_cases e : b = s1.nextBlocked
        · rw [e, upd_same] at hb ⊢
          exact hb
        · rw [upd_ne _ _ e] at hb ⊢
          exact h1.2 b r hb
      · exact h1

theorem deposit_knows {c : Cfg} {dest : Acct} : ∀ (gs : List (Nat × List Nat)) {s : St} {p : Page}, Knows p s →
    Knows (p.follow (depositEvs c dest s gs)) (doDeposit c dest s gs).1
  | [], _, _, h => h
  | g :: gs, s, p, h => by
    have h1 := group_knows (c := c) (dest := dest) (g := g) h
    unfold depositEvs doDeposit
    rw [follow_append]
    cases hd : depositGroup c s dest g with
    | mk s1 o =>
      rw [hd] at h1
      cases o with
      | none => exact deposit_knows gs h1
      | some e => exact h1

theorem event_knows {c : Cfg} {s : St} {p : Page} (h : Knows p s) (e : Event) :
    Knows (p.follow (onEvs c s e)) (onEvent c s e).1 := by
  unfold onEvs onEvent
  cases e with
  | deposit b =>
    cases b with
    | none => exact h
    | some t =>
      obtain ⟨addrs, ids, dest⟩ := t
      dsimp only
      cases decode c addrs ids with
      | error e => exact h
      | ok gs => exact deposit_knows gs h
  | _ => exact h

theorem step_knows {c : Cfg} {w w1 : World} {op : Op} {p : Page} (h : Knows p w.st) (hs : step c w op = .ok w1) :
    Knows (p.follow (evs c w.st op)) w1.st := by
  cases op with
  | deposit e => cases hs; exact event_knows h e
  | withdraw who colls serials dest ok =>
    have hc := step_contract hs
    simp only [step, bind_ok, pure_ok] at hs
    obtain ⟨⟨s1, m⟩, h1, hs⟩ := hs
    cases hs
    have hb := loop_blocked _ (withdraw_ok h1).2.2.2.2
    exact ⟨h.1.trans hc.symm, fun b r hr => h.2 b r (by rw [← hb.1]; exact hr)⟩
  | reclaim who b dest ok =>
    simp only [step, bind_ok, pure_ok] at hs
    obtain ⟨⟨s1, m⟩, h1, hs⟩ := hs
    cases hs
    obtain ⟨r, a, hr, _, _, _, rfl, rfl⟩ := reclaim_ok h1
    dsimp only [evs]
    rw [hr]
    refine ⟨h.1, fun i q hq => ?_⟩
    change upd w.st.blocked b none i = some q at hq
    by_cases e : i = b
    · rw [e, upd_same] at hq; cases hq
    · rw [upd_ne _ _ e] at hq
      exact h.2 i q hq
  | setContract a => cases hs; exact ⟨rfl, h.2⟩
  | nft op =>
    simp only [step, bind_ok, pure_ok] at hs
    obtain ⟨_, _, hs⟩ := hs
    cases hs
    exact h
  | deliver i =>
    simp only [step, bind_ok, pure_ok] at hs
    obtain ⟨_, _, hs⟩ := hs
    cases hs
    exact h

theorem story_knows (c : Cfg) : ∀ (ops : List Op) {w : World} {p : Page}, Knows p w.st →
    Knows (p.follow (story c w ops)) (exec c w ops).st
  | [], _, _, h => h
  | op :: ops, w, p, h => by
    show Knows (p.follow (tell c w op ++ story c (next c w op) ops)) (exec c (next c w op) ops).st
    rw [follow_append]
    refine story_knows c ops ?_
    unfold tell next
    cases hs : step c w op with
    | error e => exact h
    | ok w1 => exact step_knows h hs

/-- **C250.** Over any history, failing calls and wrapped counters included, a reader of the events knows the contract,
and every record of blocked tokens that can still be reclaimed: its number, collection, tokens and receiver. -/
theorem C250_page (c : Cfg) (w : World) (ops : List Op) :
    ((view w.st).follow (story c w ops)).contract = (exec c w ops).st.contract ∧
    ∀ b r, (exec c w ops).st.blocked b = some r → ((view w.st).follow (story c w ops)).records b = some r :=
  story_knows c ops ⟨rfl, fun _ _ h => h⟩

/-- **C250.** A deposit is announced as done if and only if all of it was processed without error. -/
theorem C250_done (c : Cfg) (w : World) (e : Event) :
    (∃ dest, .deposited dest ∈ tell c w (.deposit e)) ↔ (onEvent c w.st e).2 = none := by
  show (∃ dest, .deposited dest ∈ onEvs c w.st e) ↔ _
  have hg : ∀ (s : St) (d dest : Acct) (g : Nat × List Nat), .deposited d ∉ groupEvs c s dest g := by
    intro s d dest g
    unfold groupEvs
    split
    · exact List.not_mem_nil
    · split
      · simp
      · split <;> simp
  have hd : ∀ (gs : List (Nat × List Nat)) (s : St) (dest : Acct),
      (∃ d, .deposited d ∈ depositEvs c dest s gs) ↔ (doDeposit c dest s gs).2 = none := by
    intro gs
    induction gs with
    | nil => intro s dest; exact ⟨fun _ => rfl, fun _ => ⟨dest, List.mem_cons_self⟩⟩
    | cons g gs ih =>
      intro s dest
      unfold depositEvs doDeposit
      simp only [List.mem_append, hg, false_or]
      cases hd : depositGroup c s dest g with
      | mk s1 o =>
        cases o with
        | none => exact ih s1 dest
        | some e => exact ⟨fun ⟨_, h⟩ => (nomatch h), fun h => (nomatch h)⟩
  unfold onEvs onEvent
  cases e with
  | deposit b =>
    cases b with
    | none => exact ⟨fun ⟨_, h⟩ => (nomatch h), fun h => (nomatch h)⟩
    | some t =>
      obtain ⟨addrs, ids, dest⟩ := t
      dsimp only
      cases decode c addrs ids with
      | error e => exact ⟨fun ⟨_, h⟩ => (nomatch h), fun h => (nomatch h)⟩
      | ok gs => exact hd gs w.st dest
  | _ => exact ⟨fun ⟨_, h⟩ => (nomatch h), fun h => (nomatch h)⟩

theorem group_blocks {c : Cfg} {s : St} {dest : Acct} {g : Nat × List Nat} {b : Nat} {r : Blocked}
    (h : .blocked b r ∈ groupEvs c s dest g) :
    r.dest = dest ∧ r.serials = g.2 ∧ (depositGroup c s dest g).2 ≠ none ∧ (depositGroup c s dest g).1.blocked b = some r := by
  unfold groupEvs at h
  unfold depositGroup
  cases hc : collFor c s g.1 dest with
  | error e => rw [hc] at h; cases h
  | ok q =>
    obtain ⟨s1, j⟩ := q
    rw [hc] at h
    dsimp only at h ⊢
    cases hb : Nft.bridgedMint c.nft s1.nft j dest g.2 with
    | ok n =>
      rw [hb] at h
      cases List.mem_singleton.mp h
    | error e =>
      rw [hb] at h
      dsimp only at h ⊢
      split at h
      · rename_i hl
        cases List.mem_singleton.mp h
        unfold block
        rw [if_pos hl]
        exact ⟨rfl, rfl, nofun, upd_same _ _ _⟩
      · cases h

theorem deposit_blocks {c : Cfg} {dest : Acct} {b : Nat} {r : Blocked} : ∀ (gs : List (Nat × List Nat)) {s : St},
    .blocked b r ∈ depositEvs c dest s gs → r.dest = dest ∧ (doDeposit c dest s gs).1.blocked b = some r
  | [], _, h => by cases List.mem_singleton.mp h
  | g :: gs, s, h => by
    have hg := group_blocks (c := c) (s := s) (dest := dest) (g := g) (b := b) (r := r)
    unfold depositEvs at h
    unfold doDeposit
    cases hd : depositGroup c s dest g with
    | mk s1 o =>
      rw [hd] at h hg
      rcases List.mem_append.mp h with h | h
      · obtain ⟨h1, _, h2, h3⟩ := hg h
        cases o with
        | none => exact absurd rfl h2
        | some e => exact ⟨h1, h3⟩
      · cases o with
        | none => exact deposit_blocks gs h
        | some e => cases h

/-- **C250.** A record that is announced is stored under the announced number, for the receiver of the deposit, who
can reclaim it. -/
theorem C250_blocked {c : Cfg} {w w' : World} {addrs : List Nat} {ids : List (List Nat)} {dest : Acct}
    (hs : step c w (.deposit (.deposit (some (addrs, ids, dest)))) = .ok w') {b : Nat} {r : Blocked}
    (ht : .blocked b r ∈ tell c w (.deposit (.deposit (some (addrs, ids, dest))))) :
    r.dest = dest ∧ w'.st.blocked b = some r := by
  change _ ∈ onEvs c w.st (.deposit (some (addrs, ids, dest))) at ht
  cases hs
  dsimp only
  unfold onEvs at ht
  unfold onEvent
  dsimp only at ht ⊢
  cases hd : decode c addrs ids with
  | error e =>
    rw [hd] at ht
    cases ht
  | ok gs =>
    rw [hd] at ht
    exact deposit_blocks gs ht

/-! ## mints -/

theorem root_group {c : Cfg} {s : St} (hm : Maps c s) {a i : Nat} {dest : Acct} {g : Nat × List Nat}
    (h : s.toRoot a = some i) : (depositGroup c s dest g).1.toRoot a = some i := by
  unfold depositGroup
  cases hc : collFor c s g.1 dest with
  | error e => exact h
  | ok r =>
    obtain ⟨s1, j⟩ := r
    have h1 := (collFor_ok hm hc).2.2.2.2.2.2.2.2.2.1 a i h
    dsimp only
    split
    · exact h1
    · unfold block
      split <;> exact h1

theorem root_keep {c : Cfg} {a i : Nat} {dest : Acct} : ∀ (gs : List (Nat × List Nat)) {s : St}, Maps c s →
    s.toRoot a = some i → (doDeposit c dest s gs).1.toRoot a = some i
  | [], _, _, h => h
  | g :: gs, s, hm, h => by
    have h1 := root_group (dest := dest) (g := g) hm h
    have hm1 := hm.group (dest := dest) (g := g)
    unfold doDeposit
    cases hd : depositGroup c s dest g with
    | mk s1 o =>
      rw [hd] at h1 hm1
      cases o with
      | none => exact root_keep gs hm1 h1
      | some e => exact h1

theorem group_minted {c : Cfg} {s : St} (hm : Maps c s) {dest o : Acct} {g : Nat × List Nat} {id : Nat} {ns : List Nat}
    (h : .minted id ns o ∈ groupEvs c s dest g) :
    o = dest ∧ ns = g.2 ∧ (depositGroup c s dest g).2 = none ∧ (depositGroup c s dest g).1.toRoot g.1 = some id := by
  unfold groupEvs at h
  unfold depositGroup
  cases hc : collFor c s g.1 dest with
  | error e => rw [hc] at h; cases h
  | ok r =>
    obtain ⟨s1, j⟩ := r
    have hr := (collFor_ok hm hc).2.1
    rw [hc] at h
    dsimp only at h ⊢
    cases hb : Nft.bridgedMint c.nft s1.nft j dest g.2 with
    | ok n =>
      rw [hb] at h
      cases List.mem_singleton.mp h
      exact ⟨rfl, rfl, rfl, hr⟩
    | error e =>
      rw [hb] at h
      dsimp only at h
      split at h
      · cases List.mem_singleton.mp h
      · cases h

theorem deposit_minted {c : Cfg} (hc : c.Ok) {dest o : Acct} {P : List (Nat × Nat)} {id : Nat} {ns : List Nat} :
    ∀ (gs : List (Nat × List Nat)) {s : St} {C : Nat → Nat → Bool}, Safe s C P → Maps c s →
    (∀ g ∈ gs, g.2.length ≤ c.maxPerMint) → (∀ p ∈ toks gs, p.2 < Lim) →
    (∀ p ∈ toks gs, p.2 < Lim → C p.1 p.2 = false ∧ (toks gs).count p = 1) →
    .minted id ns o ∈ depositEvs c dest s gs →
    o = dest ∧ ∀ n ∈ ns, ∃ k, (doDeposit c dest s gs).1.nft.coll id = some k ∧ Nft.Owns k.owned dest n
  | [], _, _, _, _, _, _, _, hp => by
    cases List.mem_singleton.mp hp
  | g :: gs, s, C, h, hm, hlen, hsmall, hg, hp => by
    rw [toks_cons] at hg hsmall
    have hgrp : ∀ n ∈ g.2, n < Lim → C g.1 n = false ∧ g.2.count n = 1 := by
      intro n hn hl
      have hin : (g.1, n) ∈ toks [g] := mem_toks_one.mpr ⟨rfl, hn⟩
      obtain ⟨h2, h3⟩ := hg (g.1, n) (List.mem_append_left _ hin) hl
      refine ⟨h2, ?_⟩
      rw [List.count_append, count_toks_one] at h3
      have : 0 < g.2.count n := List.count_pos_iff.mpr hn
      omega
    have h1 := h.group (dest := dest) (g := g) hm hgrp
    have hm1 := hm.group (dest := dest) (g := g)
    have hgg := (group_given (dest := dest) hc hm (hlen g (List.mem_cons_self ..)) (by
      intro n hn id he hx
      have hl := hsmall (g.1, n) (List.mem_append_left _ (mem_toks_one.mpr ⟨rfl, hn⟩))
      have := h.ex id g.1 n hl he hx
      rw [(hgrp n hn hl).1] at this
      cases this)).1
    have hgm := group_minted (dest := dest) (o := o) (g := g) (id := id) (ns := ns) hm
    unfold depositEvs at hp
    unfold doDeposit
    cases hd : depositGroup c s dest g with
    | mk s1 x =>
      rw [hd] at h1 hm1 hgg hgm hp
      rcases List.mem_append.mp hp with hp | hp
      · obtain ⟨rfl, rfl, hx, hroot⟩ := hgm hp
        dsimp only at hx
        subst hx
        refine ⟨rfl, fun n hn => ?_⟩
        obtain ⟨coll, k, e1, e2, e3⟩ := (hgg rfl n hn).deposit (dest := o) gs hm1
        rw [root_keep gs hm1 hroot] at e1
        cases e1
        exact ⟨k, e2, e3⟩
      · cases x with
        | none =>
          exact deposit_minted hc gs h1 hm1 (fun g' hg' => hlen g' (List.mem_cons_of_mem _ hg'))
            (fun q hq => hsmall q (List.mem_append_right _ hq)) (by
              intro q hq hl
              obtain ⟨h2, h3⟩ := hg q (List.mem_append_right _ hq) hl
              have hc : 0 < (toks gs).count q := List.count_pos_iff.mpr hq
              rw [List.count_append] at h3
              have h0 : (toks [g]).count q = 0 := by omega
              refine ⟨?_, by omega⟩
              rw [setCustody_not (List.count_eq_zero.mp h0)]
              exact h2) hp
        | some e => cases hp

/-- **C250 (part).** After a deposit with ids below 2³² − 1, processed with or without error, each token that was
announced as minted belongs to the account that was announced as its owner, the receiver of the deposit. -/
theorem C250_minted_partial {c : Cfg} {w w' : World} (hc : c.Ok) (h : Reach c Env w) {addrs : List Nat}
    {ids : List (List Nat)} {dest : Acct} (hE : Env w (.deposit (.deposit (some (addrs, ids, dest)))))
    (hsmall : ∀ l ∈ ids, ∀ n ∈ l, n < 4294967295)
    (hs : step c w (.deposit (.deposit (some (addrs, ids, dest)))) = .ok w') {id : Nat} {ns : List Nat} {o : Acct}
    (ht : .minted id ns o ∈ tell c w (.deposit (.deposit (some (addrs, ids, dest))))) {n : Nat} (hn : n ∈ ns) :
    o = dest ∧ Nft.ownerOf w'.st.nft id n = some o := by
  have hi := h.inv
  have hpre : ∀ p ∈ toks (addrs.zip ids), p.2 < Lim := by
    intro p hp
    obtain ⟨g, hg, _, h2⟩ := mem_toks.mp hp
    exact hsmall g.2 (List.of_mem_zip (a := g.1) (b := g.2) hg).2 p.2 h2
  change _ ∈ onEvs c w.st (.deposit (some (addrs, ids, dest))) at ht
  cases hs
  dsimp only
  unfold onEvs at ht
  unfold onEvent
  cases hd : decode c addrs ids with
  | error e =>
    dsimp only at ht
    rw [hd] at ht
    cases ht
  | ok gs =>
    obtain ⟨_, _, hlen, rfl⟩ := decode_ok hd
    dsimp only at ht ⊢
    rw [hd] at ht ⊢
    dsimp only at ht ⊢
    rw [seen_small hpre] at ht ⊢
    obtain ⟨rfl, hg⟩ := deposit_minted hc (addrs.zip ids) hi.safe hi.maps (dest := dest)
      (fun g hg => hlen g.2 (List.of_mem_zip (a := g.1) (b := g.2) hg).2) hpre
      (fun p hp _ => ⟨hE.2 p hp, List.count_eq_one_of_mem hE.1 hp⟩) ht
    obtain ⟨k, h2, h3⟩ := hg n hn
    refine ⟨rfl, ?_⟩
    rw [Nft.ownerOf_some h2]
    exact (Nft.getOwner_iff ((hi.maps.deposit _).nft.bi.coll id k h2).uniq).mpr h3

/-! ## withdrawals -/

/-- **C250.** With every withdrawal that is announced, whether of tokens or of a record, one message goes to the
contract: it names the announced receiver and the announced ids, collection by collection, with the ERC-721 contract
each collection stands for. -/
theorem C250_withdrawn {c : Cfg} {w w' : World} (h : Reach c Env w) {op : Op} (hs : step c w op = .ok w') {who : Acct}
    {colls : List Nat} {serials : List (List Nat)} {dest : Nat} (ht : .withdrawn who colls serials dest ∈ tell c w op) :
    ∃ gs, w'.pending = w.pending ++ [⟨w.st.contract, gs, dest⟩] ∧
      List.Forall₂ (fun id g => w.st.toRoot g.1 = some id) colls gs ∧ gs.map Prod.snd = serials := by
  have ht' : tell c w op = evs c w.st op := by
    unfold tell
    rw [hs]
  rw [ht'] at ht
  have hg : ∀ (s : St) (dst : Acct) (g : Nat × List Nat), .withdrawn who colls serials dest ∉ groupEvs c s dst g := by
    intro s dst g
    unfold groupEvs
    split
    · exact List.not_mem_nil
    · split
      · simp
      · split <;> simp
  have hd : ∀ (gs : List (Nat × List Nat)) (s : St) (dst : Acct), .withdrawn who colls serials dest ∉ depositEvs c dst s gs := by
    intro gs
    induction gs with
    | nil => intro s dst; simp [depositEvs]
    | cons g gs ih =>
      intro s dst
      unfold depositEvs
      simp only [List.mem_append, hg, false_or]
      split
      · exact ih _ dst
      · exact List.not_mem_nil
  cases op with
  | deposit e =>
    change _ ∈ onEvs c w.st e at ht
    unfold onEvs at ht
    split at ht
    · split at ht
      · cases ht
      · exact absurd ht (hd _ _ _)
    · cases ht
  | withdraw who' colls' serials' dest' ok =>
    cases List.mem_singleton.mp ht
    exact (C128_withdraw h hs).1
  | reclaim who' b dest' ok =>
    dsimp only [evs] at ht
    cases hr : w.st.blocked b with
    | none => rw [hr] at ht; cases ht
    | some r =>
      rw [hr] at ht
      cases List.mem_singleton.mp ht
      obtain ⟨⟨a, h1, h2⟩, _⟩ := C60_reclaim_sends_back h hr hs
      exact ⟨_, h2, .cons h1 .nil, rfl⟩
  | setContract a => cases List.mem_singleton.mp ht
  | nft op => cases ht
  | deliver i => cases ht

/-- **C250.** Nothing is sent to the contract without an announcement. -/
theorem C250_sent {c : Cfg} {w w' : World} {op : Op} (hs : step c w op = .ok w')
    (ht : ∀ who colls serials dest, .withdrawn who colls serials dest ∉ tell c w op) {m : Msg} (hm : m ∈ w'.pending) :
    m ∈ w.pending := by
  have ht' : tell c w op = evs c w.st op := by
    unfold tell
    rw [hs]
  rw [ht'] at ht
  cases op with
  | deposit e => cases hs; exact hm
  | withdraw who colls serials dest ok => exact absurd List.mem_cons_self (ht who colls serials dest)
  | reclaim who b dest ok =>
    simp only [step, bind_ok, pure_ok] at hs
    obtain ⟨⟨s1, x⟩, h1, hs⟩ := hs
    obtain ⟨r, a, hr, _⟩ := reclaim_ok h1
    dsimp only [evs] at ht
    rw [hr] at ht
    exact absurd List.mem_cons_self (ht who [r.coll] [r.serials] dest)
  | setContract a => cases hs; exact hm
  | nft op =>
    simp only [step, bind_ok, pure_ok] at hs
    obtain ⟨_, _, hs⟩ := hs
    cases hs
    exact hm
  | deliver i =>
    simp only [step, bind_ok, pure_ok] at hs
    obtain ⟨_, _, hs⟩ := hs
    cases hs
    exact List.mem_of_mem_eraseIdx hm

/-! ## what the events do not tell -/

/-- **C250 is false for large ids.** A token is announced as minted to account 7, and belongs to account 66: nothing
was minted, because the collection has a token with that number already. -/
theorem C250_minted_refuted : ∃ w w' : World, Reach cfg0 NoWrap w ∧ NoWrap w (dep [(70, [4294967295])] 7) ∧
    step cfg0 w (dep [(70, [4294967295])] 7) = .ok w' ∧
    tell cfg0 w (dep [(70, [4294967295])] 7) = [.minted 100 [4294967295] 7, .deposited 7] ∧
    Nft.ownerOf w'.st.nft 100 4294967295 = some 66 := by
  refine ⟨trap, next cfg0 trap (dep [(70, [4294967295])] 7), next_reach (.init genesis_g0) (by decide +kernel)
    (by decide +kernel), ⟨checkOp_env (by decide +kernel), by decide +kernel⟩, next_ok (by decide +kernel), ?_, ?_⟩
  · decide +kernel
  · decide +kernel

/-- **C250 is false for the rest of a deposit.** The contract has taken token 6 of contract 71, and no event of this
pallet names it: it is neither minted nor announced as blocked. -/
theorem C250_lost_refuted : ∃ w w' : World, Reach cfg1 NoWrap w ∧ NoWrap w (dep [(70, [5]), (71, [6])] 8) ∧
    step cfg1 w (dep [(70, [5]), (71, [6])] 8) = .ok w' ∧
    tell cfg1 w (dep [(70, [5]), (71, [6])] 8) = [.blocked 1 ⟨100, 8, [5]⟩] ∧ w'.custody 71 6 = true := by
  refine ⟨full, next cfg1 full (dep [(70, [5]), (71, [6])] 8), full_reach,
    ⟨checkOp_env (by decide +kernel), by decide +kernel⟩, next_ok (by decide +kernel), ?_, ?_⟩
  · decide +kernel
  · decide +kernel

/-- Two deposits of account 8 are blocked; their tokens have different ids, the records do not. -/
def twice : List Op := fullOps ++ [dep [(70, [4294967296])] 8, dep [(70, [4294967297])] 8]

/-- **C250 is false for reclaimed records.** The event of a reclaimed record does not carry its number: two histories
with the same events end with different records. -/
theorem C250_reclaim_refuted : ∃ a b : List Op, check cfg1 g0 a = true ∧ check cfg1 g0 b = true ∧
    story cfg1 g0 a = story cfg1 g0 b ∧
    (exec cfg1 g0 a).st.blocked 1 = none ∧ (exec cfg1 g0 a).st.blocked 2 ≠ none ∧
    (exec cfg1 g0 b).st.blocked 1 ≠ none ∧ (exec cfg1 g0 b).st.blocked 2 = none := by
  refine ⟨twice ++ [.reclaim 8 1 600 true], twice ++ [.reclaim 8 2 600 true], ?_, ?_, ?_, ?_, ?_, ?_, ?_⟩ <;> decide +kernel

-- the case of `C250_page`, `C250_done` and `C250_withdrawn`
example : story cfg0 g0 (.setContract 5 :: demoOps) = [.contract 5, .minted 100 [3, 9] 7, .deposited 7, .minted 100 [4] 8,
    .minted 1124 [5] 8, .deposited 8, .withdrawn 8 [100] [[9, 4]] 600] := by decide +kernel

example : story cfg1 g0 (fullOps ++ [.reclaim 8 0 600 true]) = [.minted 100 [1, 2] 7, .deposited 7,
    .blocked 0 ⟨100, 8, [3, 4]⟩, .withdrawn 8 [100] [[3, 4]] 600] := by decide +kernel

-- the case of `C250_minted_partial`
example : Reach cfg0 NoWrap demo ∧ checkOp demo (dep [(71, [6]), (72, [1])] 9) = true ∧
    tell cfg0 demo (dep [(71, [6]), (72, [1])] 9) = [.minted 1124 [6] 9, .minted 2148 [1] 9, .deposited 9] :=
  ⟨demo_reach, by decide +kernel, by decide +kernel⟩

end Verif.NftPeg
