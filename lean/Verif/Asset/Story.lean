import Verif.Asset.Props
import Verif.Evm20.Props

/-!
# C255: the events of making assets

The events of /repo/pallet/assets-ext/src/lib.rs that tell of assets: `CreateAsset` (ext:714-718, in `create`) and `AssetDepositSet`
(ext:224). The events of `pallet-assets` and `pallet-balances` (dependencies) are not modelled. `pallet_assets::set_min_balance` fails for
all assets made here, since they are made as sufficient (ext:704, argument `true`).
-/

namespace Verif.Asset

/-- `Event::CreateAsset`, `Event::AssetDepositSet` (ext:182, 188). -/
inductive Said where
  | created (id : Nat) (creator : Acct) (initial : Nat)
  | depositSet (x : Nat)
deriving DecidableEq

/-- The events of a call that succeeds. -/
def evs (c : Cfg) (s : St) : Op → List Said
  | .create w _ _ _ l o =>
    match Nft.nextAssetUuid s.next c.chain with
    | some id => [.created id (o.getD w) (l.getD 1)]
    | none => []
  | .setDeposit x => [.depositSet x]
  | _ => []

/-- A history from a first state, and its events. -/
inductive Tells (c : Cfg) (g : St) : St → List Said → Prop
  | init : Genesis g → Tells c g g []
  | step {s s' : St} {es : List Said} {op : Op} : Tells c g s es → allowed s op → step c s op = .ok s' →
      Tells c g s' (es ++ evs c s op)

/-! ## Specification: a reader of the events -/

/-- The numbers of the assets that were announced, in order. -/
def announced : List Said → List Nat
  | [] => []
  | .created id _ _ :: es => id :: announced es
  | .depositSet _ :: es => announced es

/-- The price of the next asset, for a reader who starts with `x`. -/
def priceOf (x : Nat) : List Said → Nat
  | [] => x
  | .created _ _ _ :: es => priceOf x es
  | .depositSet y :: es => priceOf y es

/-- What all assets together have cost, for a reader who starts with the price `x`. -/
def costOf (x : Nat) : List Said → Nat
  | [] => 0
  | .created _ _ _ :: es => x + costOf x es
  | .depositSet y :: es => costOf y es

/-! ## Proofs -/

theorem announced_append (es fs : List Said) : announced (es ++ fs) = announced es ++ announced fs := by
  induction es with
  | nil => rfl
  | cons e es ih => cases e <;> simp [announced, ih]

theorem priceOf_append (x : Nat) (es fs : List Said) : priceOf x (es ++ fs) = priceOf (priceOf x es) fs := by
  induction es generalizing x with
  | nil => rfl
  | cons e es ih => cases e <;> simp [priceOf, ih]

theorem costOf_append (x : Nat) (es fs : List Said) : costOf x (es ++ fs) = costOf x es + costOf (priceOf x es) fs := by
  induction es generalizing x with
  | nil => simp [costOf, priceOf]
  | cons e es ih => cases e <;> simp [priceOf, costOf, ih, Nat.add_assoc]

theorem Tells.reach {c : Cfg} {g s : St} {es : List Said} (h : Tells c g s es) : Reach c g s := by
  induction h with
  | init hg => exact .init hg
  | step _ ha hs ih => exact .step ih ha hs

theorem Reach.tells {c : Cfg} {g s : St} (h : Reach c g s) : ∃ es, Tells c g s es := by
  induction h with
  | init hg => exact ⟨[], .init hg⟩
  | step _ ha hs ih =>
    obtain ⟨es, he⟩ := ih
    exact ⟨_, .step he ha hs⟩

/-- What a call does that is not told. -/
theorem untold {c : Cfg} {s s' : St} {op : Op} (h : step c s op = .ok s') (hc : ∀ w n y d l o, op ≠ .create w n y d l o)
    (hd : ∀ x, op ≠ .setDeposit x) : s'.next = s.next ∧ s'.deposit = s.deposit ∧ s'.paid = s.paid ∧
    ∀ id i', s'.info id = some i' → ∃ i, s.info id = some i ∧ i'.data.min = i.data.min := by
  have key : ∀ {a : Nat} {j : Info} {v : Option Info}, s.info a = some j → (∀ i', v = some i' → i'.data.min = j.data.min) →
      ∀ id i', upd s.info a v id = some i' → ∃ i, s.info id = some i ∧ i'.data.min = i.data.min := by
    intro a j v hj hv id i' hi'
    by_cases e : id = a
    · subst e
      rw [upd_same] at hi'
      exact ⟨j, hj, hv i' hi'⟩
    · rw [upd_ne _ _ e] at hi'
      exact ⟨i', hi', rfl⟩
  have same : ∀ id i', s.info id = some i' → ∃ i, s.info id = some i ∧ i'.data.min = i.data.min := fun _ i' h => ⟨i', h, rfl⟩
  cases op with
  | create w n y d l o => exact absurd rfl (hc w n y d l o)
  | setDeposit x => exact absurd rfl (hd x)
  | mint w a t x =>
    obtain ⟨h1, ⟨_, rfl⟩ | ⟨j, d, h2, h3, h4, h5, rfl⟩⟩ := mint_ok h
    · exact ⟨rfl, rfl, rfl, same⟩
    · refine ⟨rfl, rfl, rfl, key h2 ?_⟩
      rintro _ ⟨⟩
      rw [(Evm20.mint_ok h5).2]
  | burnFrom w a t x =>
    obtain ⟨h1, ⟨_, rfl⟩ | ⟨j, d, h2, h3, h4, h5, rfl⟩⟩ := burnFrom_ok h
    · exact ⟨rfl, rfl, rfl, same⟩
    · refine ⟨rfl, rfl, rfl, key h2 ?_⟩
      rintro _ ⟨⟩
      first
        | rw [(Evm20.burn_ok h5).2]
        | rw [(Evm20.burn_ok h5.2).2]
        | rw [(Evm20.burn_ok h5.2.2).2]
  | transfer w a t x k =>
    rcases transfer_ok h with ⟨_, _, _, rfl⟩ | ⟨h1, j, d, h2, h3, _, h5, rfl⟩
    · exact ⟨rfl, rfl, rfl, same⟩
    · refine ⟨rfl, rfl, rfl, key h2 ?_⟩
      rintro _ ⟨⟩
      rcases (Evm20.move_ok h5).2.2 with ⟨_, e⟩ | ⟨_, _, e⟩ <;> rw [e]
  | setTeam w a x y f =>
    obtain ⟨j, h1, h2, h3, rfl⟩ := setTeam_ok h
    refine ⟨rfl, rfl, rfl, key h1 ?_⟩
    rintro _ ⟨⟩
    rfl
  | transferOwnership w a t =>
    obtain ⟨j, h1, h2, h3, rfl⟩ := transferOwnership_ok h
    refine ⟨rfl, rfl, rfl, key h1 ?_⟩
    rintro _ ⟨⟩
    rfl
  | setMetadata w a n' y d =>
    obtain ⟨j, h1, h2, h3, h4, rfl⟩ := setMetadata_ok h
    refine ⟨rfl, rfl, rfl, key h1 ?_⟩
    rintro _ ⟨⟩
    rfl
  | startDestroy w a =>
    obtain ⟨j, h1, h3, rfl⟩ := startDestroy_ok h
    refine ⟨rfl, rfl, rfl, key h1 ?_⟩
    rintro _ ⟨⟩
    rfl
  | destroyAccounts a ws =>
    obtain ⟨j, h1, h2, rfl⟩ := destroyAccounts_ok h
    refine ⟨rfl, rfl, rfl, key h1 ?_⟩
    rintro _ ⟨⟩
    rfl
  | finishDestroy a =>
    obtain ⟨j, h1, h2, rfl⟩ := finishDestroy_ok h
    exact ⟨rfl, rfl, rfl, key h1 fun _ e => nomatch e⟩

theorem evs_nil {c : Cfg} {s : St} {op : Op} (hc : ∀ w n y d l o, op ≠ .create w n y d l o) (hd : ∀ x, op ≠ .setDeposit x) :
    evs c s op = [] := by
  cases op with
  | create w n y d l o => exact absurd rfl (hc w n y d l o)
  | setDeposit x => exact absurd rfl (hd x)
  | _ => rfl

theorem evs_create {c : Cfg} {s : St} {w : Acct} {n y d id : Nat} {l : Option Nat} {o : Option Acct}
    (hid : Nft.nextAssetUuid s.next c.chain = some id) : evs c s (.create w n y d l o) = [.created id (o.getD w) (l.getD 1)] := by
  simp only [evs, hid]

/-- Histories by the three kinds of calls. -/
theorem told_induct {c : Cfg} {g : St} {P : St → List Said → Prop} (h0 : P g [])
    (hc : ∀ {s s' : St} {es : List Said} {w : Acct} {n y d : Nat} {l : Option Nat} {o : Option Acct} {id : Nat}, Tells c g s es → P s es →
      step c s (.create w n y d l o) = .ok s' → Nft.nextAssetUuid s.next c.chain = some id →
      P s' (es ++ [.created id (o.getD w) (l.getD 1)]))
    (hd : ∀ {s : St} {es : List Said} {x : Nat}, Tells c g s es → P s es → P { s with deposit := x } (es ++ [.depositSet x]))
    (hu : ∀ {s s' : St} {es : List Said}, Tells c g s es → P s es → s'.next = s.next → s'.deposit = s.deposit → s'.paid = s.paid →
      (∀ id i', s'.info id = some i' → ∃ i, s.info id = some i ∧ i'.data.min = i.data.min) → P s' es)
    {s : St} {es : List Said} (h : Tells c g s es) : P s es := by
  induction h with
  | init _ => exact h0
  | @step s s' es op ht ha hs ih =>
    by_cases h1 : ∃ w n y d l o, op = .create w n y d l o
    · obtain ⟨w, n, y, d, l, o, rfl⟩ := h1
      obtain ⟨_, _, _, id, hid, _, _⟩ := create_ok hs
      rw [evs_create hid]
      exact hc ht ih hs hid
    by_cases h2 : ∃ x, op = .setDeposit x
    · obtain ⟨x, rfl⟩ := h2
      simp only [step, Except.ok.injEq] at hs
      subst hs
      exact hd ht ih
    have k1 : ∀ w n y d l o, op ≠ .create w n y d l o := fun w n y d l o e => h1 ⟨w, n, y, d, l, o, e⟩
    have k2 : ∀ x, op ≠ .setDeposit x := fun x e => h2 ⟨x, e⟩
    rw [evs_nil k1 k2, List.append_nil]
    obtain ⟨u1, u2, u3, u4⟩ := untold hs k1 k2
    exact hu ht ih u1 u2 u3 u4

/-- **C255 (numbers)** — the numbers announced are, in order, those of the counter from its first value: none is left out, none comes
twice. -/
theorem C255_numbers {c : Cfg} {g s : St} {es : List Said} (h : Tells c g s es) :
    (announced es).map some = (List.range' g.next (s.next - g.next)).map (fun k => Nft.nextAssetUuid k c.chain) ∧ g.next ≤ s.next ∧
    (announced es).Nodup := by
  have a : (announced es).map some = (List.range' g.next (s.next - g.next)).map (fun k => Nft.nextAssetUuid k c.chain) ∧ g.next ≤ s.next := by
    refine told_induct (P := fun s es => (announced es).map some =
      (List.range' g.next (s.next - g.next)).map (fun k => Nft.nextAssetUuid k c.chain) ∧ g.next ≤ s.next) ?_ ?_ ?_ ?_ h
    · simp [announced]
    · intro s s' es w n y d l o id _ ih hs hid
      obtain ⟨_, _, _, id', hid', _, rfl⟩ := create_ok hs
      refine ⟨?_, by have := ih.2; show g.next ≤ s.next + 1; omega⟩
      rw [announced_append, List.map_append, ih.1]
      show _ = (List.range' g.next (s.next + 1 - g.next)).map _
      have e : s.next + 1 - g.next = (s.next - g.next) + 1 := by have := ih.2; omega
      rw [e, List.range'_1_concat, List.map_append]
      have e2 : g.next + (s.next - g.next) = s.next := by have := ih.2; omega
      simp [announced, e2, hid]
    · intro s es x _ ih
      refine ⟨?_, ih.2⟩
      rw [announced_append]
      simpa [announced] using ih.1
    · intro s s' es _ ih h1 _ _ _
      rw [h1]
      exact ih
  refine ⟨a.1, a.2, ?_⟩
  have hI := inv_reach h.reach
  have hn : ((announced es).map some).Nodup := by
    rw [a.1]
    refine List.Nodup.map_on ?_ List.nodup_range'
    intro i hi j hj e
    have hmem : Nft.nextAssetUuid i c.chain ∈ (announced es).map some := by
      rw [a.1]
      exact List.mem_map_of_mem hi
    obtain ⟨id, _, hid⟩ := List.mem_map.mp hmem
    rw [List.mem_range'_1] at hi hj
    have h1 := hI.next
    exact (Nft.uuid_inj hid.symm (e ▸ hid.symm) (by unfold U32; omega) (by unfold U32; omega)).1
  exact List.Nodup.of_map _ hn

/-- **C255 (nothing unannounced)** — every asset that exists was announced, and what the event calls its initial balance is the least
balance of its accounts, as long as it exists. -/
theorem C255_exists {c : Cfg} {g s : St} {es : List Said} (h : Tells c g s es) (hg : Genesis g) {id : Nat} {i : Info}
    (hi : s.info id = some i) : ∃ w, Said.created id w i.data.min ∈ es := by
  revert id i
  refine told_induct (P := fun s es => ∀ {id : Nat} {i : Info}, s.info id = some i → ∃ w, Said.created id w i.data.min ∈ es)
    ?_ ?_ ?_ ?_ h
  · intro id i hi
    rw [hg.info] at hi
    cases hi
  · intro s s' es w n y d l o id _ ih hs hid id1 i1 hi1
    obtain ⟨_, _, _, id', hid', _, rfl⟩ := create_ok hs
    cases hid.symm.trans hid'
    by_cases e : id1 = id
    · subst e
      change upd s.info id1 _ id1 = _ at hi1
      rw [upd_same] at hi1
      cases hi1
      exact ⟨_, List.mem_append_right _ List.mem_cons_self⟩
    · change upd s.info id _ id1 = _ at hi1
      rw [upd_ne _ _ e] at hi1
      obtain ⟨v, hv⟩ := ih hi1
      exact ⟨v, List.mem_append_left _ hv⟩
  · intro s es x _ ih id1 i1 hi1
    obtain ⟨v, hv⟩ := ih hi1
    exact ⟨v, List.mem_append_left _ hv⟩
  · intro s s' es _ ih _ _ _ h4 id1 i1 hi1
    obtain ⟨i, hi, e⟩ := h4 id1 i1 hi1
    rw [e]
    exact ih hi

/-- **C255 (owner)** — right after a creation all roles of the asset are those of the account announced. -/
theorem C255_owner {c : Cfg} {s s' : St} {w : Acct} {n y d : Nat} {l : Option Nat} {o : Option Acct}
    (hs : step c s (.create w n y d l o) = .ok s') : ∃ id v x i, evs c s (.create w n y d l o) = [.created id v x] ∧
    s.info id = none ∧ s'.info id = some i ∧ i.owner = v ∧ i.issuer = v ∧ i.admin = v ∧ i.freezer = v := by
  obtain ⟨_, _, _, id, hid, h1, rfl⟩ := create_ok hs
  refine ⟨id, _, _, _, evs_create hid, h1, upd_same _ _ _, rfl, rfl, rfl, rfl⟩

/-- **C255 (cost)** — whoever knows the first price and follows the events knows the price and what all accounts together have paid. -/
theorem C255_cost {c : Cfg} {g s : St} {es : List Said} (h : Tells c g s es) (hg : Genesis g) :
    s.deposit = priceOf g.deposit es ∧ TotalIs s.paid (costOf g.deposit es) := by
  refine told_induct (P := fun s es => s.deposit = priceOf g.deposit es ∧ TotalIs s.paid (costOf g.deposit es)) ?_ ?_ ?_ ?_ h
  · exact ⟨rfl, TotalIs.zero.congr hg.paid⟩
  · intro s s' es w n y d l o id _ ih hs hid
    obtain ⟨_, _, _, id', hid', _, rfl⟩ := create_ok hs
    refine ⟨?_, ?_⟩
    · rw [priceOf_append]
      exact ih.1
    · rw [costOf_append, ← ih.1]
      exact ih.2.upd_add w s.deposit
  · intro s es x _ ih
    refine ⟨?_, ?_⟩
    · rw [priceOf_append]
      rfl
    · rw [costOf_append]
      exact ih.2
  · intro s s' es _ ih _ h2 h3 _
    rw [h2, h3]
    exact ih

/-! ## A case -/

/-- The events of the operations of `exOps`. -/
def exSaid : List Said := [.created 1124 8 1, .depositSet 20, .created 2148 7 5]

/-- Events along operations that succeed. -/
def allEvs : List Op → St → List Said
  | [], _ => []
  | op :: ops, s => evs exCfg s op ++ match step exCfg s op with
    | .ok s1 => allEvs ops s1
    | .error _ => []

theorem tells_run {ops : List Op} {g s : St} {es : List Said} (ht : Tells exCfg g s es) (hp : ops.all plain = true)
    (h : succeeds ops s = true) : Tells exCfg g (after ops s) (es ++ allEvs ops s) := by
  induction ops generalizing s es with
  | nil =>
    show Tells exCfg g s (es ++ [])
    rw [List.append_nil]
    exact ht
  | cons op ops ih =>
    simp only [succeeds] at h
    simp only [after, allEvs]
    simp only [List.all_cons, Bool.and_eq_true] at hp
    cases hs : step exCfg s op with
    | error e => rw [hs] at h; cases h
    | ok s1 =>
      rw [hs] at h
      dsimp only at h ⊢
      rw [← List.append_assoc]
      refine ih (.step ht ?_ hs) hp.2 h
      cases op <;> first | trivial | (exact absurd hp.1 Bool.false_ne_true)

theorem exTells : Tells exCfg exGenesis (after exOps exGenesis) exSaid := by
  have := tells_run (ops := exOps) (.init exGenesis_ok) (by decide) (by decide +kernel)
  have e : allEvs exOps exGenesis = exSaid := by decide +kernel
  rw [List.nil_append, e] at this
  exact this

example : announced exSaid = [1124, 2148] ∧ priceOf exGenesis.deposit exSaid = 20 ∧ costOf exGenesis.deposit exSaid = 30 := by
  decide +kernel

/-! ## What is told wrong -/

/-- **C255 is false** of the initial balance, for all calls: nobody has any of a new asset, and the event tells of at least 1. -/
theorem C255_balance_refuted {c : Cfg} {s s' : St} {w : Acct} {n y d : Nat} {l : Option Nat} {o : Option Acct}
    (hs : step c s (.create w n y d l o) = .ok s') : ∃ id v x i, evs c s (.create w n y d l o) = [.created id v x] ∧ 1 ≤ x ∧
    s'.info id = some i ∧ i.data.supply = 0 ∧ ∀ u, i.data.bal u = 0 := by
  obtain ⟨_, _, h1, id, hid, _, rfl⟩ := create_ok hs
  exact ⟨id, _, _, _, evs_create hid, Nat.one_le_iff_ne_zero.mpr h1, upd_same _ _ _, rfl, fun _ => rfl⟩

/-- **C255 is false** of the creator: in two histories with the same events different accounts made the asset and paid for it. -/
theorem C255_creator_refuted : ∃ s s' : St, ∃ es : List Said, Tells exCfg exGenesis s es ∧ Tells exCfg exGenesis s' es ∧
    es = [.created 1124 8 1] ∧ s.paid 8 = 10 ∧ s'.paid 8 = 0 ∧ s'.paid 7 = 10 := by
  have h1 := tells_run (ops := [.create 8 4 3 6 none none]) (.init exGenesis_ok) (by decide) (by decide +kernel)
  have h2 := tells_run (ops := [.create 7 4 3 6 none (some 8)]) (.init exGenesis_ok) (by decide) (by decide +kernel)
  refine ⟨_, _, _, h1, h2, ?_⟩
  decide +kernel

end Verif.Asset
