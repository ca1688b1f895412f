import Verif.Asset.Model
import Verif.Nft.Inv

namespace Verif.Asset

theorem create_ok {c : Cfg} {s s' : St} {who : Acct} {n y d : Nat} {l : Option Nat} {o : Option Acct}
    (h : create c s who n y d l o = .ok s') : d ≤ 18 ∧ s.deposit ≤ s.free who ∧ l.getD 1 ≠ 0 ∧
    ∃ id, Nft.nextAssetUuid s.next c.chain = some id ∧ s.info id = none ∧
    s' = { s with
      info := upd s.info id (some (newInfo (o.getD who) (l.getD 1) d))
      next := s.next + 1
      free := upd s.free who (s.free who - s.deposit)
      reserved := upd s.reserved who (s.reserved who + s.deposit)
      paid := upd s.paid who (s.paid who + s.deposit) } := by
  simp only [create, bind_ok, ensure_ok, okOr_ok, pure_ok] at h
  obtain ⟨_, h1, _, h2, id, h3, _, h4, _, h5, _, _, h7⟩ := h
  exact ⟨h1, h2, h5, id, h3, h4, h7.symm⟩

theorem mint_ok {c : Cfg} {s s' : St} {who w : Acct} {id x : Nat} (h : mint c s who id w x = .ok s') :
    id ≠ c.native ∧ ((x = 0 ∧ s' = s) ∨ ∃ i d, s.info id = some i ∧ i.destroying = false ∧ i.issuer = who ∧
      Evm20.mint i.data w x = .ok d ∧ s' = { s with info := upd s.info id (some { i with data := d }) }) := by
  unfold mint at h
  by_cases hx : x = 0
  · simp only [hx, if_true, bind_ok, ensure_ok, pure_ok] at h
    obtain ⟨_, h1, h2⟩ := h
    exact ⟨h1, .inl ⟨hx, h2.symm⟩⟩
  · simp only [hx, if_false, bind_ok, ensure_ok, okOr_ok, pure_ok] at h
    obtain ⟨_, h1, i, h2, _, h3, _, h4, d, h5, h6⟩ := h
    exact ⟨h1, .inr ⟨i, d, h2, h3, h4, h5, h6.symm⟩⟩

theorem burnFrom_ok {c : Cfg} {s s' : St} {who w : Acct} {id x : Nat} (h : burnFrom c s who id w x = .ok s') :
    id ≠ c.native ∧ ((x = 0 ∧ s' = s) ∨ ∃ i d, s.info id = some i ∧ i.destroying = false ∧ i.admin = who ∧
      Evm20.burn i.data w (min x (Evm20.reducible i.data w)) = .ok d ∧
      s' = { s with info := upd s.info id (some { i with data := d }) }) := by
  unfold burnFrom at h
  by_cases hx : x = 0
  · simp only [hx, if_true, bind_ok, ensure_ok, okOr_ok, pure_ok] at h
    obtain ⟨_, h1, _, _, _, _, h2⟩ := h
    exact ⟨h1, .inl ⟨hx, h2.symm⟩⟩
  · simp only [hx, if_false, bind_ok, ensure_ok, okOr_ok, pure_ok] at h
    obtain ⟨_, h1, i, h2, _, h3, _, h4, _, _, d, h5, h6⟩ := h
    exact ⟨h1, .inr ⟨i, d, h2, h3, h4, h5, h6.symm⟩⟩

theorem transfer_ok {c : Cfg} {s s' : St} {who dst : Acct} {id x : Nat} {k : Bool} (h : transfer c s who id dst x k = .ok s') :
    (id = c.native ∧ x ≤ s.free who ∧ (k = true → 1 + x ≤ s.free who) ∧ s' = { s with free := Ledger.move s.free who dst x }) ∨
    (id ≠ c.native ∧ ∃ i d, s.info id = some i ∧ i.destroying = false ∧ (k = true → i.data.min + x ≤ i.data.bal who) ∧
      Evm20.move i.data who dst x = .ok d ∧
      s' = { s with info := upd s.info id (some { i with data := d }) }) := by
  unfold transfer at h
  by_cases hx : id = c.native
  · simp only [hx, if_true, bind_ok, ensure_ok, pure_ok] at h
    obtain ⟨_, h1, _, h2, h3⟩ := h
    exact .inl ⟨hx, h1, h2, h3.symm⟩
  · simp only [hx, if_false, bind_ok, ensure_ok, okOr_ok, pure_ok] at h
    obtain ⟨i, h2, _, h3, _, h4, d, h5, h6⟩ := h
    exact .inr ⟨hx, i, d, h2, h3, h4, h5, h6.symm⟩

theorem setTeam_ok {s s' : St} {who : Acct} {id a b f : Nat} (h : setTeam s who id a b f = .ok s') :
    ∃ i, s.info id = some i ∧ i.destroying = false ∧ i.owner = who ∧ s' = { s with info := upd s.info id (some { i with
      issuer := a
      admin := b
      freezer := f }) } := by
  simp only [setTeam, bind_ok, ensure_ok, okOr_ok, pure_ok] at h
  obtain ⟨i, h1, _, h2, _, h3, h4⟩ := h
  exact ⟨i, h1, h2, h3, h4.symm⟩

theorem transferOwnership_ok {s s' : St} {who new : Acct} {id : Nat} (h : transferOwnership s who id new = .ok s') :
    ∃ i, s.info id = some i ∧ i.destroying = false ∧ i.owner = who ∧ s' = { s with
      info := upd s.info id (some { i with owner := new })
      reserved := Ledger.move s.reserved who new i.metaDeposit } := by
  simp only [transferOwnership, bind_ok, ensure_ok, okOr_ok, pure_ok] at h
  obtain ⟨i, h1, _, h2, _, h3, h4⟩ := h
  exact ⟨i, h1, h2, h3, h4.symm⟩

theorem setMetadata_ok {s s' : St} {who : Acct} {id n y d : Nat} (h : setMetadata s who id n y d = .ok s') :
    ∃ i, s.info id = some i ∧ i.destroying = false ∧ i.owner = who ∧ metaPrice n y - i.metaDeposit ≤ s.free who ∧ s' = { s with
      info := upd s.info id (some { i with
        dec := d
        metaDeposit := metaPrice n y })
      free := upd s.free who (s.free who + i.metaDeposit - metaPrice n y)
      reserved := upd s.reserved who (s.reserved who + metaPrice n y - i.metaDeposit) } := by
  simp only [setMetadata, bind_ok, ensure_ok, okOr_ok, pure_ok] at h
  obtain ⟨_, _, _, _, i, h1, _, h2, _, h3, _, h4, h5⟩ := h
  exact ⟨i, h1, h2, h3, h4, h5.symm⟩

theorem startDestroy_ok {s s' : St} {who : Acct} {id : Nat} (h : startDestroy s who id = .ok s') :
    ∃ i, s.info id = some i ∧ i.owner = who ∧ s' = { s with info := upd s.info id (some { i with destroying := true }) } := by
  simp only [startDestroy, bind_ok, ensure_ok, okOr_ok, pure_ok] at h
  obtain ⟨i, h1, _, h2, h3⟩ := h
  exact ⟨i, h1, h2, h3.symm⟩

theorem destroyAccounts_ok {s s' : St} {id : Nat} {ws : List Acct} (h : destroyAccounts s id ws = .ok s') :
    ∃ i, s.info id = some i ∧ i.destroying = true ∧ s' = { s with info := upd s.info id (some { i with data := { i.data with
      bal := fun w => if w ∈ ws then 0 else i.data.bal w } }) } := by
  simp only [destroyAccounts, bind_ok, ensure_ok, okOr_ok, pure_ok] at h
  obtain ⟨i, h1, _, h2, h3⟩ := h
  exact ⟨i, h1, h2, h3.symm⟩

theorem finishDestroy_ok {s s' : St} {id : Nat} (h : finishDestroy s id = .ok s') :
    ∃ i, s.info id = some i ∧ i.destroying = true ∧ s' = { s with
      info := upd s.info id none
      free := upd s.free i.owner (s.free i.owner + min i.metaDeposit (s.reserved i.owner))
      reserved := upd s.reserved i.owner (s.reserved i.owner - i.metaDeposit) } := by
  simp only [finishDestroy, bind_ok, ensure_ok, okOr_ok, pure_ok] at h
  obtain ⟨i, h1, _, h2, h3⟩ := h
  exact ⟨i, h1, h2, h3.symm⟩

/-- What a step does to one asset that exists. -/
inductive Change (c : Cfg) (s : St) (id : Nat) (i : Info) : Op → Option Info → Prop
  | same {op : Op} : Change c s id i op (some i)
  | mint {w x d} : id ≠ c.native → i.destroying = false → Evm20.mint i.data w x = .ok d →
      Change c s id i (.mint i.issuer id w x) (some { i with data := d })
  | burn {w x d} : id ≠ c.native → i.destroying = false → Evm20.burn i.data w (min x (Evm20.reducible i.data w)) = .ok d →
      Change c s id i (.burnFrom i.admin id w x) (some { i with data := d })
  | move {w dst x k d} : id ≠ c.native → i.destroying = false → Evm20.move i.data w dst x = .ok d →
      Change c s id i (.transfer w id dst x k) (some { i with data := d })
  | team {a b f} : i.destroying = false → Change c s id i (.setTeam i.owner id a b f) (some { i with
      issuer := a
      admin := b
      freezer := f })
  | owner {new} : i.destroying = false → Change c s id i (.transferOwnership i.owner id new) (some { i with owner := new })
  | info {n y d} : i.destroying = false → Change c s id i (.setMetadata i.owner id n y d) (some { i with
      dec := d
      metaDeposit := metaPrice n y })
  | start : Change c s id i (.startDestroy i.owner id) (some { i with destroying := true })
  | accounts {ws} : i.destroying = true → Change c s id i (.destroyAccounts id ws) (some { i with data := { i.data with
      bal := fun w => if w ∈ ws then 0 else i.data.bal w } })
  | finish : i.destroying = true → Change c s id i (.finishDestroy id) none

theorem change {c : Cfg} {s s' : St} {op : Op} {id : Nat} {i : Info} (hi : s.info id = some i) (h : step c s op = .ok s') :
    Change c s id i op (s'.info id) := by
  have key : ∀ {a : Nat} {j : Info} {v : Option Info}, s.info a = some j → (id = a → j = i → Change c s id i op v) →
      Change c s id i op (upd s.info a v id) := by
    intro a j v hj hv
    by_cases e : id = a
    · subst e
      rw [upd_same]
      exact hv rfl (by rw [hi] at hj; exact (Option.some.inj hj).symm)
    · rw [upd_ne _ _ e, hi]
      exact .same
  cases op with
  | create w n y d l o =>
    obtain ⟨_, _, _, a, _, h4, rfl⟩ := create_ok h
    have e : id ≠ a := by rintro rfl; rw [hi] at h4; cases h4
    show Change c s id i _ (upd s.info a _ id)
    rw [upd_ne _ _ e, hi]
    exact .same
  | mint w a t x =>
    obtain ⟨h1, ⟨_, rfl⟩ | ⟨j, d, h2, h3, h4, h5, rfl⟩⟩ := mint_ok h
    · rw [hi]; exact .same
    · refine key h2 ?_
      rintro rfl rfl
      subst h4
      exact .mint h1 h3 h5
  | burnFrom w a t x =>
    obtain ⟨h1, ⟨_, rfl⟩ | ⟨j, d, h2, h3, h4, h5, rfl⟩⟩ := burnFrom_ok h
    · rw [hi]; exact .same
    · refine key h2 ?_
      rintro rfl rfl
      subst h4
      exact .burn h1 h3 h5
  | transfer w a t x k =>
    rcases transfer_ok h with ⟨_, _, _, rfl⟩ | ⟨h1, j, d, h2, h3, _, h5, rfl⟩
    · show Change c s id i _ (s.info id)
      rw [hi]; exact .same
    · refine key h2 ?_
      rintro rfl rfl
      exact .move h1 h3 h5
  | setTeam w a x y f =>
    obtain ⟨j, h1, h2, h3, rfl⟩ := setTeam_ok h
    refine key h1 ?_
    rintro rfl rfl
    subst h3
    exact .team h2
  | transferOwnership w a n =>
    obtain ⟨j, h1, h2, h3, rfl⟩ := transferOwnership_ok h
    refine key h1 ?_
    rintro rfl rfl
    subst h3
    exact .owner h2
  | setMetadata w a n y d =>
    obtain ⟨j, h1, h2, h3, _, rfl⟩ := setMetadata_ok h
    refine key h1 ?_
    rintro rfl rfl
    subst h3
    exact .info h2
  | startDestroy w a =>
    obtain ⟨j, h1, h3, rfl⟩ := startDestroy_ok h
    refine key h1 ?_
    rintro rfl rfl
    subst h3
    exact .start
  | destroyAccounts a ws =>
    obtain ⟨j, h1, h2, rfl⟩ := destroyAccounts_ok h
    refine key h1 ?_
    rintro rfl rfl
    exact .accounts h2
  | finishDestroy a =>
    obtain ⟨j, h1, h2, rfl⟩ := finishDestroy_ok h
    refine key h1 ?_
    rintro rfl rfl
    exact .finish h2
  | setDeposit x =>
    simp only [step, Except.ok.injEq] at h
    subst h
    show Change c s id i _ (s.info id)
    rw [hi]
    exact .same

/-- Reserved of `w` for the metadata of one asset. -/
def share (w : Acct) : Option Info → Nat
  | some i => if i.owner = w then i.metaDeposit else 0
  | none => 0

/-- Reserved for the metadata of the assets that `w` owns, asset by asset. -/
def held (s : St) (w : Acct) (id : Nat) : Nat := share w (s.info id)

/-- What is reserved of an account: what it paid for creating assets, and the metadata of those it owns. -/
structure Inv (s : St) : Prop where
  res : ∀ w, ∃ m, TotalIs (held s w) m ∧ s.reserved w = s.paid w + m
  next : s.next ≤ 4194303

theorem held_upd {s : St} {id : Nat} {v : Option Info} (w : Acct) (s' : St) (e : s'.info = upd s.info id v) :
    held s' w = upd (held s w) id (share w v) := by
  funext a
  unfold held
  rw [e]
  by_cases ha : a = id
  · subst ha; rw [upd_same, upd_same]
  · rw [upd_ne _ _ ha, upd_ne _ _ ha]

theorem res_same {s s' : St} {id : Nat} {i i' : Info} (h : ∀ w, ∃ m, TotalIs (held s w) m ∧ s.reserved w = s.paid w + m)
    (hi : s.info id = some i) (e : s'.info = upd s.info id (some i')) (ho : i'.owner = i.owner) (hm : i'.metaDeposit = i.metaDeposit)
    (hr : s'.reserved = s.reserved) (hp : s'.paid = s.paid) : ∀ w, ∃ m, TotalIs (held s' w) m ∧ s'.reserved w = s'.paid w + m := by
  intro w
  obtain ⟨m, h1, h2⟩ := h w
  refine ⟨m, ?_, by rw [hr, hp]; exact h2⟩
  have e1 : held s' w = held s w := by
    rw [held_upd w s' e]
    funext a
    by_cases ha : a = id
    · subst ha
      rw [upd_same]
      unfold held
      rw [hi]
      show (if i'.owner = w then i'.metaDeposit else 0) = _
      rw [ho, hm]
      rfl
    · rw [upd_ne _ _ ha]
  rw [e1]; exact h1

theorem inv_step {c : Cfg} {s s' : St} {op : Op} (hI : Inv s) (h : step c s op = .ok s') : Inv s' := by
  obtain ⟨hr, hn⟩ := hI
  cases op with
  | create w n y d l o =>
    obtain ⟨_, h2, _, a, h3, h4, rfl⟩ := create_ok h
    refine ⟨fun v => ?_, Nft.uuid_bound h3 hn⟩
    obtain ⟨m, h5, h6⟩ := hr v
    have e := held_upd (s := s) (id := a) (v := some (newInfo (o.getD w) (l.getD 1) d)) v
      { s with
        info := upd s.info a (some (newInfo (o.getD w) (l.getD 1) d))
        next := s.next + 1
        free := upd s.free w (s.free w - s.deposit)
        reserved := upd s.reserved w (s.reserved w + s.deposit)
        paid := upd s.paid w (s.paid w + s.deposit) } rfl
    have z : held s v a = 0 := by unfold held; rw [h4]; rfl
    have e0 : share v (some (newInfo (o.getD w) (l.getD 1) d)) = 0 := by
      show (if _ = v then 0 else 0) = 0
      split <;> rfl
    rw [e0] at e
    refine ⟨m, ?_, ?_⟩
    · rw [e]
      have := h5.upd a 0
      rw [z] at this
      exact this
    · show upd s.reserved w _ v = upd s.paid w _ v + m
      by_cases hv : v = w
      · subst hv; rw [upd_same, upd_same]; omega
      · rw [upd_ne _ _ hv, upd_ne _ _ hv]; exact h6
  | mint w a t x =>
    obtain ⟨h1, ⟨_, rfl⟩ | ⟨j, d, h2, h3, h4, h5, rfl⟩⟩ := mint_ok h
    · exact ⟨hr, hn⟩
    · exact ⟨res_same hr h2 rfl rfl rfl rfl rfl, hn⟩
  | burnFrom w a t x =>
    obtain ⟨h1, ⟨_, rfl⟩ | ⟨j, d, h2, h3, h4, h5, rfl⟩⟩ := burnFrom_ok h
    · exact ⟨hr, hn⟩
    · exact ⟨res_same hr h2 rfl rfl rfl rfl rfl, hn⟩
  | transfer w a t x k =>
    rcases transfer_ok h with ⟨_, _, _, rfl⟩ | ⟨h1, j, d, h2, h3, _, h5, rfl⟩
    · exact ⟨hr, hn⟩
    · exact ⟨res_same hr h2 rfl rfl rfl rfl rfl, hn⟩
  | setTeam w a x y f =>
    obtain ⟨j, h1, h2, h3, rfl⟩ := setTeam_ok h
    exact ⟨res_same hr h1 rfl rfl rfl rfl rfl, hn⟩
  | transferOwnership w a n =>
    obtain ⟨j, h1, h2, h3, rfl⟩ := transferOwnership_ok h
    refine ⟨fun v => ?_, hn⟩
    have e := held_upd (s := s) (id := a) (v := some { j with owner := n }) v
      { s with
        info := upd s.info a (some { j with owner := n })
        reserved := Ledger.move s.reserved w n j.metaDeposit } rfl
    obtain ⟨m, h5, h6⟩ := hr v
    obtain ⟨mw, h7, h8⟩ := hr w
    have z : ∀ v, held s v a = if j.owner = v then j.metaDeposit else 0 := by intro v; unfold held; rw [h1]; rfl
    have hle := h7.le a
    rw [z, if_pos h3] at hle
    refine ⟨m - held s v a + (if n = v then j.metaDeposit else 0), ?_, ?_⟩
    · rw [e]; exact h5.upd a _
    · have hva := h5.le a
      have zv := z v
      show upd (upd s.reserved w (s.reserved w - j.metaDeposit)) n
        (upd s.reserved w (s.reserved w - j.metaDeposit) n + j.metaDeposit) v = s.paid v + _
      by_cases hvn : v = n
      · subst hvn
        rw [upd_same, if_pos rfl]
        by_cases hvw : v = w
        · subst hvw
          rw [upd_same]
          rw [if_pos h3] at zv
          omega
        · rw [upd_ne _ _ hvw]
          rw [if_neg (by rw [h3]; exact fun q => hvw q.symm)] at zv
          omega
      · rw [upd_ne _ _ hvn, if_neg (fun q => hvn q.symm)]
        by_cases hvw : v = w
        · subst hvw
          rw [upd_same]
          rw [if_pos h3] at zv
          omega
        · rw [upd_ne _ _ hvw]
          rw [if_neg (by rw [h3]; exact fun q => hvw q.symm)] at zv
          omega
  | setMetadata w a n y d =>
    obtain ⟨j, h1, h2, h3, _, rfl⟩ := setMetadata_ok h
    refine ⟨fun v => ?_, hn⟩
    have e := held_upd (s := s) (id := a) (v := some { j with
        dec := d
        metaDeposit := metaPrice n y }) v
      { s with
        info := upd s.info a (some { j with
          dec := d
          metaDeposit := metaPrice n y })
        free := upd s.free w (s.free w + j.metaDeposit - metaPrice n y)
        reserved := upd s.reserved w (s.reserved w + metaPrice n y - j.metaDeposit) } rfl
    obtain ⟨m, h5, h6⟩ := hr v
    have zv : held s v a = if j.owner = v then j.metaDeposit else 0 := by unfold held; rw [h1]; rfl
    have hva := h5.le a
    refine ⟨m - held s v a + (if j.owner = v then metaPrice n y else 0), ?_, ?_⟩
    · rw [e]; exact h5.upd a _
    · show upd s.reserved w _ v = s.paid v + _
      by_cases hvw : v = w
      · subst hvw
        rw [if_pos h3] at zv
        rw [upd_same, if_pos h3]
        omega
      · have q : j.owner ≠ v := by rw [h3]; exact fun q => hvw q.symm
        rw [if_neg q] at zv
        rw [upd_ne _ _ hvw, if_neg q]
        omega
  | startDestroy w a =>
    obtain ⟨j, h1, h3, rfl⟩ := startDestroy_ok h
    exact ⟨res_same hr h1 rfl rfl rfl rfl rfl, hn⟩
  | destroyAccounts a ws =>
    obtain ⟨j, h1, h2, rfl⟩ := destroyAccounts_ok h
    exact ⟨res_same hr h1 rfl rfl rfl rfl rfl, hn⟩
  | finishDestroy a =>
    obtain ⟨j, h1, h2, rfl⟩ := finishDestroy_ok h
    refine ⟨fun v => ?_, hn⟩
    have e := held_upd (s := s) (id := a) (v := none) v
      { s with
        info := upd s.info a none
        free := upd s.free j.owner (s.free j.owner + min j.metaDeposit (s.reserved j.owner))
        reserved := upd s.reserved j.owner (s.reserved j.owner - j.metaDeposit) } rfl
    obtain ⟨m, h5, h6⟩ := hr v
    have zv : held s v a = if j.owner = v then j.metaDeposit else 0 := by unfold held; rw [h1]; rfl
    have hva := h5.le a
    refine ⟨m - held s v a + 0, ?_, ?_⟩
    · rw [e]; exact h5.upd a _
    · show upd s.reserved j.owner _ v = s.paid v + _
      by_cases hvw : v = j.owner
      · subst hvw
        rw [if_pos rfl] at zv
        rw [upd_same]
        omega
      · rw [if_neg (fun q => hvw q.symm)] at zv
        rw [upd_ne _ _ hvw]
        omega
  | setDeposit x =>
    simp only [step, Except.ok.injEq] at h
    subst h
    exact ⟨hr, hn⟩

theorem inv_reach {c : Cfg} {g s : St} (h : Reach c g s) : Inv s := by
  induction h with
  | init hg =>
    refine ⟨fun w => ⟨0, ?_, by rw [hg.reserved, hg.paid]⟩, hg.next⟩
    have : held g w = fun _ => 0 := by
      funext a; unfold held; rw [hg.info]; rfl
    rw [this]
    exact TotalIs.zero
  | step _ _ hs ih => exact inv_step ih hs

/-- An owner has reserved at least what the metadata of an asset needs. -/
theorem Inv.owner_le {s : St} (hI : Inv s) {id : Nat} {i : Info} (hi : s.info id = some i) :
    s.paid i.owner + i.metaDeposit ≤ s.reserved i.owner := by
  obtain ⟨m, h1, h2⟩ := hI.res i.owner
  have := h1.le id
  unfold held at this
  rw [hi] at this
  simp only [share, if_true] at this
  omega

/-- The native token is never created or destroyed here. -/
theorem total_step {c : Cfg} {s s' : St} {op : Op} {n : Nat} (hI : Inv s) (h : step c s op = .ok s')
    (ht : TotalIs (fun w => s.free w + s.reserved w) n) : TotalIs (fun w => s'.free w + s'.reserved w) n := by
  cases op with
  | create w n' y d l o =>
    obtain ⟨_, h2, _, a, h3, h4, rfl⟩ := create_ok h
    refine ht.congr fun v => ?_
    show upd s.free w _ v + upd s.reserved w _ v = _
    by_cases hv : v = w
    · subst hv; rw [upd_same, upd_same]; omega
    · rw [upd_ne _ _ hv, upd_ne _ _ hv]
  | mint w a t x =>
    obtain ⟨h1, ⟨_, rfl⟩ | ⟨j, d, h2, h3, h4, h5, rfl⟩⟩ := mint_ok h <;> exact ht
  | burnFrom w a t x =>
    obtain ⟨h1, ⟨_, rfl⟩ | ⟨j, d, h2, h3, h4, h5, rfl⟩⟩ := burnFrom_ok h <;> exact ht
  | transfer w a t x k =>
    rcases transfer_ok h with ⟨_, h2, _, rfl⟩ | ⟨h1, j, d, h2, h3, _, h5, rfl⟩
    · have := Ledger.move_total (s := w) (d := t) (x := x) (by show x ≤ s.free w + s.reserved w; omega) ht
      refine this.congr fun v => ?_
      show Ledger.move s.free w t x v + s.reserved v = Ledger.move (fun w => s.free w + s.reserved w) w t x v
      unfold Ledger.move
      by_cases hvt : v = t
      · subst hvt
        rw [upd_same, upd_same]
        by_cases hvw : v = w
        · subst hvw; rw [upd_same, upd_same]; dsimp only; omega
        · rw [upd_ne _ _ hvw, upd_ne _ _ hvw]; omega
      · rw [upd_ne _ _ hvt, upd_ne _ _ hvt]
        by_cases hvw : v = w
        · subst hvw; rw [upd_same, upd_same]; dsimp only; omega
        · rw [upd_ne _ _ hvw, upd_ne _ _ hvw]
    · exact ht
  | setTeam w a x y f =>
    obtain ⟨j, h1, h2, h3, rfl⟩ := setTeam_ok h
    exact ht
  | transferOwnership w a t =>
    obtain ⟨j, h1, h2, h3, rfl⟩ := transferOwnership_ok h
    have hle := hI.owner_le h1
    rw [h3] at hle
    have := Ledger.move_total (s := w) (d := t) (x := j.metaDeposit)
      (by show j.metaDeposit ≤ s.free w + s.reserved w; omega) ht
    refine this.congr fun v => ?_
    show s.free v + Ledger.move s.reserved w t j.metaDeposit v = Ledger.move (fun w => s.free w + s.reserved w) w t j.metaDeposit v
    unfold Ledger.move
    by_cases hvt : v = t
    · subst hvt
      rw [upd_same, upd_same]
      by_cases hvw : v = w
      · subst hvw; rw [upd_same, upd_same]; dsimp only; omega
      · rw [upd_ne _ _ hvw, upd_ne _ _ hvw]; omega
    · rw [upd_ne _ _ hvt, upd_ne _ _ hvt]
      by_cases hvw : v = w
      · subst hvw; rw [upd_same, upd_same]; dsimp only; omega
      · rw [upd_ne _ _ hvw, upd_ne _ _ hvw]
  | setMetadata w a n' y d =>
    obtain ⟨j, h1, h2, h3, h4, rfl⟩ := setMetadata_ok h
    have hle := hI.owner_le h1
    rw [h3] at hle
    refine ht.congr fun v => ?_
    show upd s.free w _ v + upd s.reserved w _ v = _
    by_cases hv : v = w
    · subst hv; rw [upd_same, upd_same]; omega
    · rw [upd_ne _ _ hv, upd_ne _ _ hv]
  | startDestroy w a =>
    obtain ⟨j, h1, h3, rfl⟩ := startDestroy_ok h
    exact ht
  | destroyAccounts a ws =>
    obtain ⟨j, h1, h2, rfl⟩ := destroyAccounts_ok h
    exact ht
  | finishDestroy a =>
    obtain ⟨j, h1, h2, rfl⟩ := finishDestroy_ok h
    have hle := hI.owner_le h1
    refine ht.congr fun v => ?_
    show upd s.free j.owner _ v + upd s.reserved j.owner _ v = _
    by_cases hv : v = j.owner
    · subst hv; rw [upd_same, upd_same]; omega
    · rw [upd_ne _ _ hv, upd_ne _ _ hv]
  | setDeposit x =>
    simp only [step, Except.ok.injEq] at h
    subst h
    exact ht

theorem next_le {c : Cfg} {s s' : St} {op : Op} (h : step c s op = .ok s') : s.next ≤ s'.next := by
  cases op with
  | create w n y d l o =>
    obtain ⟨_, h2, _, a, h3, h4, rfl⟩ := create_ok h
    exact Nat.le_succ _
  | mint w a t x =>
    obtain ⟨h1, ⟨_, rfl⟩ | ⟨j, d, h2, h3, h4, h5, rfl⟩⟩ := mint_ok h <;> exact Nat.le_refl _
  | burnFrom w a t x =>
    obtain ⟨h1, ⟨_, rfl⟩ | ⟨j, d, h2, h3, h4, h5, rfl⟩⟩ := burnFrom_ok h <;> exact Nat.le_refl _
  | transfer w a t x k =>
    rcases transfer_ok h with ⟨_, _, _, rfl⟩ | ⟨h1, j, d, h2, h3, _, h5, rfl⟩ <;> exact Nat.le_refl _
  | setTeam w a x y f =>
    obtain ⟨j, h1, h2, h3, rfl⟩ := setTeam_ok h
    exact Nat.le_refl _
  | transferOwnership w a t =>
    obtain ⟨j, h1, h2, h3, rfl⟩ := transferOwnership_ok h
    exact Nat.le_refl _
  | setMetadata w a n' y d =>
    obtain ⟨j, h1, h2, h3, h4, rfl⟩ := setMetadata_ok h
    exact Nat.le_refl _
  | startDestroy w a =>
    obtain ⟨j, h1, h3, rfl⟩ := startDestroy_ok h
    exact Nat.le_refl _
  | destroyAccounts a ws =>
    obtain ⟨j, h1, h2, rfl⟩ := destroyAccounts_ok h
    exact Nat.le_refl _
  | finishDestroy a =>
    obtain ⟨j, h1, h2, rfl⟩ := finishDestroy_ok h
    exact Nat.le_refl _
  | setDeposit x =>
    simp only [step, Except.ok.injEq] at h
    subst h
    exact Nat.le_refl _

theorem next_run {c : Cfg} {s s' : St} {ops : List Op} (h : Run c s ops s') : s.next ≤ s'.next := by
  induction h with
  | nil => exact Nat.le_refl _
  | cons _ hs _ ih => exact Nat.le_trans (next_le hs) ih

theorem inv_run {c : Cfg} {s s' : St} {ops : List Op} (h : Run c s ops s') (hI : Inv s) : Inv s' := by
  induction h with
  | nil => exact hI
  | cons _ hs _ ih => exact ih (inv_step hI hs)

end Verif.Asset
