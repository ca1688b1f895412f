import Verif.Erc20Peg.Spec
import Verif.Nft.Inv

/-!
# Accounting invariant of the ERC-20 bridge
-/

namespace Verif.Erc20Peg

theorem sumFor_append {α : Type} (tok : α → Addr) (amt : α → Nat) (l : List α) (x : α) (t : Addr) :
    sumFor tok amt (l ++ [x]) t = sumFor tok amt l t + if tok x = t then amt x else 0 := by
  simp [sumFor]

theorem newAsset_inj {c : Cfg} {i j : Nat} {a : AssetId} (h1 : newAsset c i = some a) (h2 : newAsset c j = some a)
    (hi : i ≤ 4194303) (hj : j ≤ 4194303) : i = j := by
  unfold newAsset at h1 h2
  cases e1 : Nft.nextAssetUuid i c.chainId with
  | none => rw [e1] at h1; cases h1
  | some n =>
    cases e2 : Nft.nextAssetUuid j c.chainId with
    | none => rw [e2] at h2; cases h2
    | some m =>
      rw [e1] at h1; rw [e2] at h2
      simp only at h1 h2
      split at h1
      · split at h2
        · have : n = m := by
            have := (Option.some.inj h1).trans (Option.some.inj h2).symm
            exact congrArg Fin.val this
          subst this
          exact (Nft.uuid_inj e1 e2 (by unfold U32; omega) (by unfold U32; omega)).1
        · cases h2
      · cases h1

theorem newAsset_bound {c : Cfg} {i : Nat} {a : AssetId} (h : newAsset c i = some a) (hi : i ≤ 4194303) :
    i + 1 ≤ 4194303 := by
  unfold newAsset at h
  cases e : Nft.nextAssetUuid i c.chainId with
  | none => rw [e] at h; cases h
  | some n => exact Nft.uuid_bound e hi

theorem burnOrTransfer_ok {c : Cfg} {L L' : Ledger} {a : AssetId} {who : Acct} {x : Nat} (hs : L.Sound)
    (h : burnOrTransfer c L a who x = .ok L') :
    L'.Sound ∧ (∀ b, b ≠ a → L'.iss b = L.iss b ∧ L'.bal b = L.bal b) ∧
    (a = c.native → L'.iss a = L.iss a ∧ (who ≠ c.peg → L'.bal a c.peg = L.bal a c.peg + x)) ∧
    (a ≠ c.native → L'.iss a + x = L.iss a) := by
  unfold burnOrTransfer at h
  split at h
  · rename_i ha
    obtain ⟨_, h1, h2, h3⟩ := Ledger.transfer_ok h
    refine ⟨Ledger.transfer_sound h hs, fun b hb => ⟨by rw [h1], h2 b hb⟩, fun _ => ⟨by rw [h1], fun hw => ?_⟩,
      fun hn => absurd ha hn⟩
    have := h3 c.peg
    rw [if_neg (Ne.symm hw), if_pos rfl] at this
    exact this
  · rename_i ha
    obtain ⟨h0, h1, h2, h3, _⟩ := Ledger.burn_ok h
    refine ⟨Ledger.burn_sound h hs, fun b hb => ⟨h2 b hb, h3 b hb⟩, fun hn => absurd hn ha, fun _ => ?_⟩
    have := (hs a).1.le who
    omega

theorem mintOrTransfer_ok {c : Cfg} {L L' : Ledger} {a : AssetId} {ben : Acct} {x : Nat} (hs : L.Sound)
    (h : mintOrTransfer c L a ben x = .ok L') :
    L'.Sound ∧ (∀ b, b ≠ a → L'.iss b = L.iss b ∧ L'.bal b = L.bal b) ∧
    (a = c.native → L'.iss a = L.iss a ∧ (ben ≠ c.peg → L'.bal a c.peg + x = L.bal a c.peg)) ∧
    (a ≠ c.native → L'.iss a = L.iss a + x) := by
  unfold mintOrTransfer at h
  split at h
  · rename_i ha
    obtain ⟨_, h1, h2, h3⟩ := Ledger.transfer_ok h
    refine ⟨Ledger.transfer_sound h hs, fun b hb => ⟨by rw [h1], h2 b hb⟩, fun _ => ⟨by rw [h1], fun hw => ?_⟩,
      fun hn => absurd ha hn⟩
    have := h3 c.peg
    rw [if_neg (Ne.symm hw), if_pos rfl] at this
    exact this
  · rename_i ha
    obtain ⟨h0, h1, h2, h3, _⟩ := Ledger.mint_ok h
    exact ⟨Ledger.mint_sound h hs, fun b hb => ⟨h2 b hb, h3 b hb⟩, fun hn => absurd hn ha, fun _ => h1⟩

theorem mintOrTransfer_err {c : Cfg} {L : Ledger} {a : AssetId} {ben : Acct} {x : Nat} {e : Err}
    (h : mintOrTransfer c L a ben x = .error e) (ha : a ≠ c.native) : U128 ≤ L.iss a + x := by
  unfold mintOrTransfer at h
  rw [if_neg ha] at h
  unfold Ledger.mint at h
  split at h
  · cases h
  · omega

/-- The books of one token. -/
structure Book (c : Cfg) (g : St) (L : Ledger) (t : Addr) (a : AssetId) (wait : Nat → Nat) (dep sent fail : Nat) : Prop where
  other : a ≠ c.native → ∃ n, TotalIs wait n ∧ L.iss a + n + sent + fail = g.ledger.iss a + dep ∧
    (g.ledger.iss a + dep < U128 → fail = 0)
  native : a = c.native → ∃ n, TotalIs wait n ∧ L.bal a c.peg + dep = g.ledger.bal a c.peg + n + sent + fail

structure Inv (c : Cfg) (g s : St) : Prop where
  sound : s.ledger.Sound
  map : ∀ t a, s.toAsset t = some a ↔ s.toErc a = some t
  next : s.nextAsset ≤ 4194303
  fresh : ∀ i a, s.nextAsset ≤ i → i ≤ 4194303 → newAsset c i = some a →
    s.ledger.iss a = 0 ∧ g.ledger.iss a = 0 ∧ s.toErc a = none ∧ a ≠ c.native
  ids : ∀ i, s.nextId ≤ i → s.payments i = none
  known : ∀ i p, s.payments i = some p → ∃ a, s.toAsset p.token = some a
  unknown : ∀ t, s.toAsset t = none → depositedOf s t = 0 ∧ sentOf s t = 0 ∧ failedOf s t = 0
  book : ∀ t a, s.toAsset t = some a →
    Book c g s.ledger t a (waiting s t) (depositedOf s t) (sentOf s t) (failedOf s t)
  ben : ∀ i d, s.payments i = some (.deposit d) → d.ben ≠ c.peg

theorem Inv.genesis {c : Cfg} {g : St} (h : Genesis c g) : Inv c g g := by
  have e1 : ∀ t, depositedOf g t = 0 := fun t => by simp [depositedOf, h.accepted, sumFor]
  have e2 : ∀ t, sentOf g t = 0 := fun t => by simp [sentOf, h.outbox, sumFor]
  have e3 : ∀ t, failedOf g t = 0 := fun t => by simp [failedOf, h.failed, sumFor]
  have e4 : ∀ t, TotalIs (waiting g t) 0 := fun t => TotalIs.zero.congr (fun i => by simp [waiting, h.payments])
  refine ⟨h.sound, h.map, h.next, fun i a h1 h2 h3 => ?_, fun i _ => h.payments i, fun i p hp => ?_, fun t _ => ⟨e1 t, e2 t, e3 t⟩,
    fun t a _ => ⟨fun _ => ⟨0, e4 t, by rw [e1, e2, e3], fun _ => e3 t⟩, fun _ => ⟨0, e4 t, by rw [e1, e2, e3]⟩⟩,
    fun i d hp => ?_⟩
  · obtain ⟨f1, f2, f3⟩ := h.fresh i a h1 h2 h3
    exact ⟨f1, f1, f2, f3⟩
  · rw [h.payments] at hp; cases hp
  · rw [h.payments] at hp; cases hp

/-- Nothing the books depend on changes. -/
theorem Inv.same {c : Cfg} {g s s' : St} (hi : Inv c g s) (e1 : s'.ledger = s.ledger) (e2 : s'.toAsset = s.toAsset)
    (e3 : s'.toErc = s.toErc) (e4 : s'.nextAsset = s.nextAsset) (e5 : s'.nextId = s.nextId)
    (e6 : s'.payments = s.payments) (e7 : s'.accepted = s.accepted) (e8 : s'.outbox = s.outbox)
    (e9 : s'.failed = s.failed) : Inv c g s' := by
  have f1 : depositedOf s' = depositedOf s := by funext t; simp only [depositedOf, e7]
  have f2 : sentOf s' = sentOf s := by funext t; simp only [sentOf, e8]
  have f3 : failedOf s' = failedOf s := by funext t; simp only [failedOf, e9]
  have f4 : waiting s' = waiting s := by funext t i; simp only [waiting, e6]
  constructor
  · rw [e1]; exact hi.sound
  · rw [e2, e3]; exact hi.map
  · rw [e4]; exact hi.next
  · rw [e1, e3, e4]; exact hi.fresh
  · rw [e5, e6]; exact hi.ids
  · rw [e2, e6]; exact hi.known
  · rw [e2, f1, f2, f3]; exact hi.unknown
  · rw [e1, e2, f1, f2, f3, f4]; exact hi.book
  · rw [e6]; exact hi.ben

/-! ## the asset of a token -/

theorem assetFor_inv {c : Cfg} {g s : St} {t : Addr} {r : St × AssetId} (hi : Inv c g s)
    (h : assetFor c s t = .ok r) :
    Inv c g r.1 ∧ r.1.toAsset t = some r.2 ∧ (∀ t', s.toAsset t' ≠ none → r.1.toAsset t' = s.toAsset t') ∧
    r.1.payments = s.payments ∧ r.1.ledger = s.ledger ∧ r.1.accepted = s.accepted ∧ r.1.outbox = s.outbox ∧
    r.1.failed = s.failed ∧ r.1.nextId = s.nextId := by
  unfold assetFor at h
  cases ha : s.toAsset t with
  | some a =>
    rw [ha] at h
    cases h
    exact ⟨hi, ha, fun _ _ => rfl, rfl, rfl, rfl, rfl, rfl, rfl⟩
  | none =>
    rw [ha] at h
    simp only [bind_ok, okOr_ok, pure_ok] at h
    obtain ⟨a, hn, rfl⟩ := h
    obtain ⟨f1, f2, f3, f4⟩ := hi.fresh _ _ (le_refl _) hi.next hn
    have hb := newAsset_bound hn hi.next
    obtain ⟨u1, u2, u3⟩ := hi.unknown t ha
    have hne : ∀ t' b, s.toAsset t' = some b → b ≠ a := by
      rintro t' b hb' rfl
      rw [(hi.map t' b).mp hb'] at f3
      cases f3
    refine ⟨⟨hi.sound, ?_, by simpa using hb, ?_, hi.ids, ?_, ?_, ?_, hi.ben⟩, by simp, ?_, rfl, rfl, rfl, rfl, rfl, rfl⟩
    · intro t' b
      simp only [upd_apply]
      by_cases h1 : t' = t
      · subst h1
        rw [if_pos rfl]
        by_cases h2 : b = a
        · subst h2; simp
        · rw [if_neg h2]
          constructor
          · intro h3; exact absurd (Option.some.inj h3).symm h2
          · intro h3; rw [(hi.map t' b).mpr h3] at ha; cases ha
      · rw [if_neg h1]
        by_cases h2 : b = a
        · subst h2
          rw [if_pos rfl]
          constructor
          · intro h3; exact absurd rfl (hne _ _ h3)
          · intro h3; exact absurd (Option.some.inj h3).symm h1
        · rw [if_neg h2]; exact hi.map t' b
    · intro i b h1 h2 h3
      simp only at h1
      have hlt : s.nextAsset ≤ i := by omega
      obtain ⟨g1, g2, g3, g4⟩ := hi.fresh i b hlt h2 h3
      have hba : b ≠ a := by
        rintro rfl
        have := newAsset_inj h3 hn h2 hi.next
        omega
      exact ⟨g1, g2, by simp only [upd_ne _ _ hba]; exact g3, g4⟩
    · intro i p hp
      obtain ⟨b, hb'⟩ := hi.known i p hp
      refine ⟨b, ?_⟩
      rw [← hb']
      apply upd_ne
      rintro e
      rw [e, ha] at hb'; cases hb'
    · intro t' h1
      apply hi.unknown
      simp only [upd_apply] at h1
      split at h1
      · cases h1
      · exact h1
    · intro t' b h1
      simp only [upd_apply] at h1
      split at h1
      · rename_i e
        subst e
        cases h1
        have hw : TotalIs (waiting s t') 0 := by
          refine TotalIs.zero.congr (fun i => ?_)
          unfold waiting
          cases hp : s.payments i with
          | none => rfl
          | some p =>
            obtain ⟨b, hb'⟩ := hi.known i p hp
            simp only
            rw [if_neg]
            intro e
            rw [e, ha] at hb'; cases hb'
        refine ⟨fun _ => ⟨0, hw, ?_, fun _ => u3⟩, fun e => absurd e f4⟩
        change s.ledger.iss a + 0 + sentOf s t' + failedOf s t' = g.ledger.iss a + depositedOf s t'
        omega
      · exact hi.book t' b h1
    · intro t' h1
      apply upd_ne
      rintro rfl
      exact h1 ha

/-! ## changes of the books -/

theorem waiting_upd_none {s s' : St} {id : Nat} {p : Payment} (hp : s.payments id = some p)
    (e : s'.payments = upd s.payments id none) {t : Addr} {n : Nat} (h : TotalIs (waiting s t) n) :
    (if p.token = t then p.amount else 0) ≤ n ∧
    TotalIs (waiting s' t) (n - if p.token = t then p.amount else 0) := by
  have h1 : waiting s t id = if p.token = t then p.amount else 0 := by simp only [waiting, hp]
  have hle := h.le id
  rw [h1] at hle
  have h2 := h.upd id 0
  rw [h1, Nat.add_zero] at h2
  refine ⟨hle, h2.congr (fun i => ?_)⟩
  by_cases hid : i = id <;> simp [waiting, e, upd_apply, hid]

theorem waiting_upd_some {s s' : St} {id : Nat} {p : Payment} (hp : s.payments id = none)
    (e : s'.payments = upd s.payments id (some p)) {t : Addr} {n : Nat} (h : TotalIs (waiting s t) n) :
    TotalIs (waiting s' t) (n + if p.token = t then p.amount else 0) := by
  have h1 : waiting s t id = 0 := by simp only [waiting, hp]
  have h2 := h.upd id (if p.token = t then p.amount else 0)
  rw [h1, Nat.sub_zero] at h2
  refine h2.congr (fun i => ?_)
  by_cases hid : i = id <;> simp [waiting, e, upd_apply, hid]

/-- A deposit is paid out, after the payment `id` (if any) was removed. -/
theorem pay_inv {c : Cfg} {g s s' : St} {d : Dep} (L' : Ledger) {a : AssetId} (hi : Inv c g s)
    (ha : s.toAsset d.token = some a) (hb : d.ben ≠ c.peg)
    (h : mintOrTransfer c s.ledger a d.ben d.amount = .ok L')
    (e1 : s'.ledger = L') (e2 : s'.toAsset = s.toAsset)
    (e3 : s'.toErc = s.toErc) (e4 : s'.nextAsset = s.nextAsset) (e5 : s'.nextId = s.nextId)
    (e8 : s'.outbox = s.outbox) (e9 : s'.failed = s.failed)
    (hk : (s'.payments = s.payments ∧ s'.accepted = s.accepted ++ [d]) ∨
      (∃ id, s.payments id = some (.deposit d) ∧ s'.payments = upd s.payments id none ∧ s'.accepted = s.accepted)) :
    Inv c g s' := by
  obtain ⟨k1, k2, k3, k4⟩ := mintOrTransfer_ok hi.sound h
  subst e1
  have f2 : sentOf s' = sentOf s := by funext t; simp only [sentOf, e8]
  have f3 : failedOf s' = failedOf s := by funext t; simp only [failedOf, e9]
  have hpay : ∀ i p, s'.payments i = some p → s.payments i = some p := by
    intro i p hp
    rcases hk with ⟨hk, _⟩ | ⟨id, _, hk, _⟩
    · rwa [hk] at hp
    · rw [hk, upd_apply] at hp
      split at hp
      · cases hp
      · exact hp
  constructor
  · exact k1
  · rw [e2, e3]; exact hi.map
  · rw [e4]; exact hi.next
  · intro i b h1 h2 h3
    rw [e4] at h1
    obtain ⟨g1, g2, g3, g4⟩ := hi.fresh i b h1 h2 h3
    have hba : b ≠ a := by
      rintro rfl
      rw [(hi.map _ _).mp ha] at g3; cases g3
    exact ⟨by rw [(k2 b hba).1]; exact g1, g2, by rw [e3]; exact g3, g4⟩
  · intro i h1
    rw [e5] at h1
    have := hi.ids i h1
    cases hp : s'.payments i with
    | none => rfl
    | some p => rw [hpay i p hp] at this; cases this
  · intro i p hp
    rw [e2]; exact hi.known i p (hpay i p hp)
  · intro t ht
    rw [e2] at ht
    rw [f2, f3]
    have hu := hi.unknown t ht
    refine ⟨?_, hu.2⟩
    rcases hk with ⟨_, hk⟩ | ⟨id, _, _, hk⟩
    · simp only [depositedOf, hk, sumFor_append]
      rw [if_neg]
      · exact hu.1
      · intro e; rw [e, ht] at ha; cases ha
    · simp only [depositedOf, hk]; exact hu.1
  · intro t b ht
    rw [e2] at ht
    rw [f2, f3]
    have hbk := hi.book t b ht
    have hab : d.token = t ↔ a = b := by
      constructor
      · intro e; rw [e, ht] at ha; exact (Option.some.inj ha).symm
      · intro e; subst e
        have := ((hi.map _ _).mp ha).symm.trans ((hi.map _ _).mp ht)
        exact Option.some.inj this
    have hw : ∀ n, TotalIs (waiting s t) n → ∃ n', TotalIs (waiting s' t) n' ∧
        n + depositedOf s' t = n' + depositedOf s t + if d.token = t then d.amount else 0 := by
      intro n hn
      rcases hk with ⟨k1, k2⟩ | ⟨id, k0, k1, k2⟩
      · refine ⟨n, ?_, ?_⟩
        · refine hn.congr (fun i => ?_)
          simp only [waiting, k1]
        · simp only [depositedOf, k2, sumFor_append]; omega
      · obtain ⟨hle, hn'⟩ := waiting_upd_none k0 k1 hn
        refine ⟨_, hn', ?_⟩
        simp only [Payment.token, Payment.amount] at hle ⊢
        simp only [depositedOf, k2]
        by_cases e : d.token = t
        · simp only [e, if_true] at hle ⊢; omega
        · simp only [e, if_false] at hle ⊢; omega
    have hmono : depositedOf s t ≤ depositedOf s' t := by
      rcases hk with ⟨k1, k2⟩ | ⟨id, k0, k1, k2⟩
      · simp only [depositedOf, k2, sumFor_append]; omega
      · simp only [depositedOf, k2]; omega
    constructor
    · intro hb
      obtain ⟨n, h1, h2, h3⟩ := hbk.other hb
      obtain ⟨n', h4, h5⟩ := hw n h1
      refine ⟨n', h4, ?_, fun hlt => h3 (by omega)⟩
      by_cases e : a = b
      · subst e
        rw [if_pos (hab.mpr rfl)] at h5
        rw [k4 hb]; omega
      · rw [if_neg (fun h => e (hab.mp h))] at h5
        rw [(k2 b (Ne.symm e)).1]; omega
    · intro hb'
      obtain ⟨n, h1, h2⟩ := hbk.native hb'
      obtain ⟨n', h4, h5⟩ := hw n h1
      refine ⟨n', h4, ?_⟩
      by_cases e : a = b
      · subst e
        rw [if_pos (hab.mpr rfl)] at h5
        have := (k3 hb').2 hb; omega
      · rw [if_neg (fun h => e (hab.mp h))] at h5
        rw [(k2 b (Ne.symm e)).2]; omega
  · intro i d' hp
    exact hi.ben i d' (hpay i _ hp)

/-- A waiting payment is removed and recorded as sent or as failed. -/
theorem drop_inv {c : Cfg} {g s s' : St} {id : Nat} {p : Payment} (hi : Inv c g s) (hp : s.payments id = some p)
    (e1 : s'.ledger = s.ledger) (e2 : s'.toAsset = s.toAsset)
    (e3 : s'.toErc = s.toErc) (e4 : s'.nextAsset = s.nextAsset) (e5 : s'.nextId = s.nextId)
    (e6 : s'.payments = upd s.payments id none) (e7 : s'.accepted = s.accepted)
    (hk : (∀ t, sentOf s' t = sentOf s t + (if p.token = t then p.amount else 0) ∧ failedOf s' t = failedOf s t) ∨
      (∀ t, failedOf s' t = failedOf s t + (if p.token = t then p.amount else 0) ∧ sentOf s' t = sentOf s t ∧
        (p.token = t → ∀ a, s.toAsset t = some a → a ≠ c.native → U128 ≤ s.ledger.iss a + p.amount))) :
    Inv c g s' := by
  have f1 : depositedOf s' = depositedOf s := by funext t; simp only [depositedOf, e7]
  have hpay : ∀ i q, s'.payments i = some q → s.payments i = some q := by
    intro i q hq
    rw [e6, upd_apply] at hq
    split at hq
    · cases hq
    · exact hq
  constructor
  · rw [e1]; exact hi.sound
  · rw [e2, e3]; exact hi.map
  · rw [e4]; exact hi.next
  · rw [e1, e3, e4]; exact hi.fresh
  · intro i h1
    rw [e5] at h1
    have := hi.ids i h1
    cases hq : s'.payments i with
    | none => rfl
    | some q => rw [hpay i q hq] at this; cases this
  · intro i q hq
    rw [e2]; exact hi.known i q (hpay i q hq)
  · intro t ht
    rw [e2] at ht
    rw [f1]
    have hu := hi.unknown t ht
    have hne : p.token ≠ t := by
      obtain ⟨a, ha⟩ := hi.known id p hp
      rintro rfl; rw [ht] at ha; cases ha
    rcases hk with hk | hk
    · have := hk t
      rw [if_neg hne] at this
      exact ⟨hu.1, by omega, by omega⟩
    · have := hk t
      rw [if_neg hne] at this
      exact ⟨hu.1, by omega, by omega⟩
  · intro t b ht
    rw [e2] at ht
    rw [f1, e1]
    have hbk := hi.book t b ht
    constructor
    · intro hb
      obtain ⟨n, h1, h2, h3⟩ := hbk.other hb
      obtain ⟨hle, h4⟩ := waiting_upd_none hp e6 h1
      refine ⟨_, h4, ?_, ?_⟩
      · rcases hk with hk | hk <;> have := hk t <;> omega
      · intro hlt
        have h5 := h3 hlt
        rcases hk with hk | hk
        · have := hk t; omega
        · obtain ⟨q1, q2, q3⟩ := hk t
          by_cases e : p.token = t
          · have := q3 e b ht hb
            rw [if_pos e] at hle
            omega
          · rw [if_neg e] at q1; omega
    · intro hb
      obtain ⟨n, h1, h2⟩ := hbk.native hb
      obtain ⟨hle, h4⟩ := waiting_upd_none hp e6 h1
      refine ⟨_, h4, ?_⟩
      rcases hk with hk | hk <;> have := hk t <;> omega
  · intro i d' hq
    exact hi.ben i d' (hpay i _ hq)

theorem process_inv {c : Cfg} {g s : St} (hi : Inv c g s) (id : Nat) : Inv c g (process c s id) := by
  unfold process
  cases hp : s.payments id with
  | none => exact hi
  | some p =>
    cases p with
    | withdrawal src w =>
      obtain ⟨a, ha⟩ := hi.known id _ hp
      simp only [Payment.token] at ha
      simp only [ha]
      refine drop_inv hi hp rfl rfl rfl rfl rfl rfl rfl (Or.inl (fun t => ⟨?_, rfl⟩))
      simp only [sentOf, processWithdrawal, sumFor_append, Payment.token, Payment.amount]
      rfl
    | deposit d =>
      obtain ⟨a, ha⟩ := hi.known id _ hp
      simp only [Payment.token] at ha
      simp only
      have e0 : processDeposit c { s with payments := upd s.payments id none } d =
          (do let L ← mintOrTransfer c s.ledger a d.ben d.amount
              pure { s with
                payments := upd s.payments id none
                ledger := L }) := by
        simp only [processDeposit, assetFor, ha]
        rfl
      rw [e0]
      cases hm : mintOrTransfer c s.ledger a d.ben d.amount with
      | ok L =>
        exact pay_inv L hi ha (hi.ben id d hp) hm rfl rfl rfl rfl rfl rfl rfl (Or.inr ⟨id, hp, rfl, rfl⟩)
      | error e =>
        refine drop_inv hi hp rfl rfl rfl rfl rfl rfl rfl (Or.inr (fun t => ⟨?_, rfl, ?_⟩))
        · exact sumFor_append _ _ _ _ _
        · rintro rfl b hb hn
          simp only [Payment.token] at hb
          rw [ha] at hb; cases hb
          exact mintOrTransfer_err hm hn

theorem fold_inv {c : Cfg} {g : St} : ∀ (l : List Nat) {s : St}, Inv c g s → Inv c g (l.foldl (process c) s)
  | [], _, h => h
  | i :: l, _, h => fold_inv l (process_inv h i)

theorem Inv.sched {c : Cfg} {g s : St} (h : Inv c g s) (f : Nat → Option (List Nat)) :
    Inv c g { s with sched := f } := h.same rfl rfl rfl rfl rfl rfl rfl rfl rfl

theorem idleLoop_inv {c : Cfg} {g : St} {m : Nat} : ∀ (bs : List Nat) {s : St} (n k : Nat), Inv c g s →
    Inv c g (idleLoop c m bs s n k).1
  | [], _, _, _, h => h
  | b :: bs, s, n, k, h => by
    unfold idleLoop
    simp only
    have := fold_inv (c := c) (g := g) (((s.sched b).getD []).take (m - n))
      (h.sched (upd s.sched b (if m - n < ((s.sched b).getD []).length then some (((s.sched b).getD []).drop (m - n)) else none)))
    split
    · exact this
    · exact idleLoop_inv bs _ _ this

/-- A payment starts waiting: a deposit that was accepted, or a withdrawal whose money has been taken. -/
theorem wait_inv {c : Cfg} {g s s' : St} {p : Payment} (hi : Inv c g s) {a : AssetId} (ha : s.toAsset p.token = some a)
    (hben : ∀ d, p = .deposit d → d.ben ≠ c.peg)
    (e2 : s'.toAsset = s.toAsset)
    (e3 : s'.toErc = s.toErc) (e4 : s'.nextAsset = s.nextAsset) (e5 : s'.nextId = s.nextId + 1)
    (e6 : s'.payments = upd s.payments s.nextId (some p)) (e8 : s'.outbox = s.outbox) (e9 : s'.failed = s.failed)
    (hk : (s'.ledger = s.ledger ∧ ∃ d, p = .deposit d ∧ s'.accepted = s.accepted ++ [d]) ∨
      (s'.accepted = s.accepted ∧ ∃ who, who ≠ c.peg ∧ burnOrTransfer c s.ledger a who p.amount = .ok s'.ledger)) :
    Inv c g s' := by
  have f2 : sentOf s' = sentOf s := by funext t; simp only [sentOf, e8]
  have f3 : failedOf s' = failedOf s := by funext t; simp only [failedOf, e9]
  have hnone := hi.ids s.nextId (le_refl _)
  have hL : s'.ledger.Sound ∧ (∀ b, b ≠ a → s'.ledger.iss b = s.ledger.iss b ∧ s'.ledger.bal b = s.ledger.bal b) := by
    rcases hk with ⟨hk, _⟩ | ⟨_, who, hw, hk⟩
    · rw [hk]; exact ⟨hi.sound, fun _ _ => ⟨rfl, rfl⟩⟩
    · have := burnOrTransfer_ok hi.sound hk
      exact ⟨this.1, this.2.1⟩
  constructor
  · exact hL.1
  · rw [e2, e3]; exact hi.map
  · rw [e4]; exact hi.next
  · intro i b h1 h2 h3
    rw [e4] at h1
    obtain ⟨g1, g2, g3, g4⟩ := hi.fresh i b h1 h2 h3
    have hba : b ≠ a := by
      rintro rfl
      rw [(hi.map _ _).mp ha] at g3; cases g3
    exact ⟨by rw [(hL.2 b hba).1]; exact g1, g2, by rw [e3]; exact g3, g4⟩
  · intro i h1
    rw [e5] at h1
    rw [e6, upd_ne _ _ (by omega)]
    exact hi.ids i (by omega)
  · intro i q hq
    rw [e6, upd_apply] at hq
    rw [e2]
    split at hq
    · cases hq; exact ⟨a, ha⟩
    · exact hi.known i q hq
  · intro t ht
    rw [e2] at ht
    rw [f2, f3]
    have hu := hi.unknown t ht
    refine ⟨?_, hu.2⟩
    rcases hk with ⟨_, d, hd, hk⟩ | ⟨hk, _⟩
    · subst hd
      simp only [depositedOf, hk, sumFor_append]
      rw [if_neg]
      · exact hu.1
      · intro e
        simp only [Payment.token] at ha
        rw [e, ht] at ha; cases ha
    · simp only [depositedOf, hk]; exact hu.1
  · intro t b ht
    rw [e2] at ht
    rw [f2, f3]
    have hbk := hi.book t b ht
    have hab : p.token = t ↔ a = b := by
      constructor
      · intro e; rw [e, ht] at ha; exact (Option.some.inj ha).symm
      · intro e; subst e
        have := ((hi.map _ _).mp ha).symm.trans ((hi.map _ _).mp ht)
        exact Option.some.inj this
    have hmono : depositedOf s t ≤ depositedOf s' t := by
      rcases hk with ⟨_, d, hd, hk⟩ | ⟨hk, _⟩
      · simp only [depositedOf, hk, sumFor_append]; omega
      · simp only [depositedOf, hk]; omega
    constructor
    · intro hb
      obtain ⟨n, h1, h2, h3⟩ := hbk.other hb
      refine ⟨_, waiting_upd_some hnone e6 h1, ?_, fun hlt => h3 (by omega)⟩
      rcases hk with ⟨hl, d, hd, hk⟩ | ⟨hk, who, hw, hl⟩
      · subst hd
        simp only [depositedOf, hk, sumFor_append, Payment.token, Payment.amount, hl] at h2 ⊢
        by_cases e : d.token = t
        · simp only [e, if_true]; omega
        · simp only [e, if_false]; omega
      · simp only [depositedOf, hk] at h2 ⊢
        obtain ⟨_, l2, l3, l4⟩ := burnOrTransfer_ok hi.sound hl
        by_cases e : a = b
        · subst e
          rw [if_pos (hab.mpr rfl)]
          have := l4 hb; omega
        · rw [if_neg (fun h => e (hab.mp h)), (l2 b (Ne.symm e)).1]; omega
    · intro hb
      obtain ⟨n, h1, h2⟩ := hbk.native hb
      refine ⟨_, waiting_upd_some hnone e6 h1, ?_⟩
      rcases hk with ⟨hl, d, hd, hk⟩ | ⟨hk, who, hw, hl⟩
      · subst hd
        simp only [depositedOf, hk, sumFor_append, Payment.token, Payment.amount, hl] at h2 ⊢
        by_cases e : d.token = t
        · simp only [e, if_true]; omega
        · simp only [e, if_false]; omega
      · simp only [depositedOf, hk] at h2 ⊢
        obtain ⟨_, l2, l3, l4⟩ := burnOrTransfer_ok hi.sound hl
        by_cases e : a = b
        · subst e
          rw [if_pos (hab.mpr rfl)]
          have := (l3 hb).2 hw; omega
        · rw [if_neg (fun h => e (hab.mp h)), (l2 b (Ne.symm e)).2]; omega
  · intro i d hq
    rw [e6, upd_apply] at hq
    split at hq
    · exact hben d (Option.some.inj hq)
    · exact hi.ben i d hq

/-- A withdrawal is sent at once. -/
theorem send_inv {c : Cfg} {g s : St} {L : Ledger} {a : AssetId} {w : Wd} {who : Acct} (hi : Inv c g s)
    (ha : s.toAsset w.token = some a) (hw : who ≠ c.peg)
    (h : burnOrTransfer c s.ledger a who w.amount = .ok L) :
    Inv c g (processWithdrawal c { s with ledger := L } w a) := by
  obtain ⟨l1, l2, l3, l4⟩ := burnOrTransfer_ok hi.sound h
  have f2 : ∀ t, sentOf (processWithdrawal c { s with ledger := L } w a) t =
      sentOf s t + if w.token = t then w.amount else 0 := by
    intro t; simp only [sentOf, processWithdrawal, sumFor_append]
  refine ⟨l1, hi.map, hi.next, ?_, hi.ids, hi.known, ?_, ?_, hi.ben⟩
  · intro i b h1 h2 h3
    obtain ⟨g1, g2, g3, g4⟩ := hi.fresh i b h1 h2 h3
    have hba : b ≠ a := by
      rintro rfl
      rw [(hi.map _ _).mp ha] at g3; cases g3
    exact ⟨by rw [← g1]; exact (l2 b hba).1, g2, g3, g4⟩
  · intro t ht
    have hu := hi.unknown t ht
    refine ⟨hu.1, ?_, hu.2.2⟩
    rw [f2, if_neg]
    · exact hu.2.1
    · intro e
      change s.toAsset t = none at ht
      rw [e, ht] at ha; cases ha
  · intro t b ht
    change s.toAsset t = some b at ht
    have hbk := hi.book t b ht
    have hab : w.token = t ↔ a = b := by
      constructor
      · intro e; rw [e, ht] at ha; exact (Option.some.inj ha).symm
      · intro e; subst e
        have := ((hi.map _ _).mp ha).symm.trans ((hi.map _ _).mp ht)
        exact Option.some.inj this
    constructor
    · intro hb
      obtain ⟨n, h1, h2, h3⟩ := hbk.other hb
      refine ⟨n, h1, ?_, h3⟩
      rw [f2]
      change L.iss b + n + _ + failedOf s t = _ + depositedOf s t
      by_cases e : a = b
      · subst e
        rw [if_pos (hab.mpr rfl)]
        have := l4 hb; omega
      · rw [if_neg (fun h => e (hab.mp h)), (l2 b (Ne.symm e)).1]; omega
    · intro hb
      obtain ⟨n, h1, h2⟩ := hbk.native hb
      refine ⟨n, h1, ?_⟩
      rw [f2]
      change L.bal b c.peg + depositedOf s t = _ + n + _ + failedOf s t
      by_cases e : a = b
      · subst e
        rw [if_pos (hab.mpr rfl)]
        have := (l3 hb).2 hw; omega
      · rw [if_neg (fun h => e (hab.mp h)), (l2 b (Ne.symm e)).2]; omega

theorem withdraw_inv {c : Cfg} {g s s' : St} {who : Acct} {a : AssetId} {x : Nat} {ben : Addr} {e : Bool} (hi : Inv c g s)
    (he : Env c s (.withdraw who a x ben e)) (h : withdraw c s who a x ben e = .ok s') : Inv c g s' := by
  unfold withdraw at h
  simp only [bind_ok, ensure_ok, okOr_ok] at h
  obtain ⟨_, _, _, _, t, ht, h⟩ := h
  have ha := (hi.map t a).mpr ht
  cases hd : delayFor s s.wdDelay a x with
  | some d =>
    rw [hd] at h
    simp only [bind_ok, ensure_ok, pure_ok] at h
    obtain ⟨_, _, L, hL, rfl⟩ := h
    unfold delayPayment
    rw [if_pos he.2]
    exact wait_inv (p := .withdrawal who ⟨t, x, ben⟩) hi ha (fun _ h => nomatch h) rfl rfl rfl rfl rfl rfl rfl
      (Or.inr ⟨rfl, who, he.1, hL⟩)
  | none =>
    rw [hd] at h
    simp only [bind_ok, pure_ok] at h
    obtain ⟨L, hL, rfl⟩ := h
    exact send_inv (w := ⟨t, x, ben⟩) hi ha he.1 hL

theorem deposit_inv {c : Cfg} {g s s' : St} {src : Addr} {d : Dep} (hi : Inv c g s)
    (he : Env c s (.deposit src d)) (h : deposit c s src d = .ok s') : Inv c g s' := by
  unfold deposit at h
  simp only [bind_ok, ensure_ok] at h
  obtain ⟨_, _, _, _, _, _, r, hr, h⟩ := h
  cases r with
  | some n =>
    simp only [pure_ok] at h
    subst h
    unfold checkKnown at hr
    cases ha : s.toAsset d.token with
    | none => rw [ha] at hr; cases hr
    | some a =>
      unfold delayPayment accept
      rw [if_pos he.2]
      exact wait_inv (p := .deposit d) hi ha (fun _ h => by cases h; exact he.1) rfl rfl rfl rfl rfl rfl rfl
        (Or.inl ⟨rfl, d, rfl, rfl⟩)
  | none =>
    simp only [bind_ok, pure_ok, processDeposit] at h
    obtain ⟨s1, ⟨r, hr1, L, hL, rfl⟩, rfl⟩ := h
    obtain ⟨h1, h2, h3, h4, h5, h6, h7, h8, h9⟩ := assetFor_inv hi hr1
    exact pay_inv L h1 h2 he.1 hL rfl rfl rfl rfl rfl rfl rfl (Or.inl ⟨rfl, rfl⟩)

theorem step_inv {c : Cfg} {g s s' : St} {op : Op} (hi : Inv c g s) (he : Env c s op) (h : step c s op = .ok s') :
    Inv c g s' := by
  cases op with
  | withdraw w a x b e => exact withdraw_inv hi he h
  | deposit src d => exact deposit_inv hi he h
  | nextBlock =>
    simp only [step, nextBlock, bind_ok, ensure_ok, pure_ok] at h
    obtain ⟨_, _, rfl⟩ := h
    split <;> exact hi.same rfl rfl rfl rfl rfl rfl rfl rfl rfl
  | idle m =>
    simp only [step, idle, bind_ok, ensure_ok, pure_ok] at h
    obtain ⟨_, _, rfl⟩ := h
    exact (idleLoop_inv s.ready 0 0 hi).same rfl rfl rfl rfl rfl rfl rfl rfl rfl
  | claim b id =>
    simp only [step, claim, bind_ok, ensure_ok, pure_ok] at h
    obtain ⟨_, _, rfl⟩ := h
    exact process_inv (hi.sched _) id
  | setActive => cases h; exact hi.same rfl rfl rfl rfl rfl rfl rfl rfl rfl
  | setContracts => cases h; exact hi.same rfl rfl rfl rfl rfl rfl rfl rfl rfl
  | setMap => exact he.elim
  | setDelay => cases h; exact hi.same rfl rfl rfl rfl rfl rfl rfl rfl rfl
  | takeAsset =>
    simp only [step, bind_ok, okOr_ok, pure_ok] at h
    obtain ⟨a, ha, rfl⟩ := h
    have hb := newAsset_bound ha hi.next
    exact ⟨hi.sound, hi.map, hb, fun i b h1 h2 h3 => hi.fresh i b (by simp only at h1; omega) h2 h3, hi.ids, hi.known,
      hi.unknown, hi.book, hi.ben⟩
  | ledger L =>
    cases h
    obtain ⟨h1, h2, h3, h4⟩ := he
    refine ⟨h1, hi.map, hi.next, fun i b q1 q2 q3 => ?_, hi.ids, hi.known, hi.unknown, fun t a ha => ?_, hi.ben⟩
    · obtain ⟨g1, g2, g3, g4⟩ := hi.fresh i b q1 q2 q3
      exact ⟨(h4 i b q1 q2 q3).trans g1, g2, g3, g4⟩
    · have hbk := hi.book t a ha
      constructor
      · intro hn
        obtain ⟨n, b1, b2, b3⟩ := hbk.other hn
        refine ⟨n, b1, ?_, b3⟩
        refine Eq.trans ?_ b2
        change L.iss a + n + sentOf s t + failedOf s t = s.ledger.iss a + n + sentOf s t + failedOf s t
        rw [h3 t a ha]
      · intro hn
        obtain ⟨n, b1, b2⟩ := hbk.native hn
        refine ⟨n, b1, ?_⟩
        subst hn
        rw [← h2] at b2
        exact b2

theorem Reach.inv {c : Cfg} {g s : St} (h : Reach c (Env c) g s) : Inv c g s := by
  induction h with
  | init hg => exact Inv.genesis hg
  | step _ hG hs ih => exact step_inv ih hG hs

end Verif.Erc20Peg
