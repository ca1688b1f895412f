import Verif.Asset.Inv

/-!
# C223, C224, C225: who may change an asset, its decimals, and what was paid for it
-/

namespace Verif.Asset

/-! ## Example states -/

def exCfg : Cfg where
  native := 1
  chain := 100

/-- Accounts 7 and 8 hold native tokens; creating an asset costs 10. -/
def exGenesis : St where
  info := fun _ => none
  next := 1
  free := fun w => if w = 7 then 1000 else if w = 8 then 500 else 0
  reserved := fun _ => 0
  deposit := 10
  paid := fun _ => 0

theorem exGenesis_ok : Genesis exGenesis := ⟨fun _ => rfl, by decide, fun _ => rfl, fun _ => rfl⟩

/-- The number of the first asset made. -/
def exId : Nat := 1124

/-- The state after some operations. -/
def after : List Op → St → St
  | [], s => s
  | op :: ops, s => match step exCfg s op with
    | .ok s1 => after ops s1
    | .error _ => s

/-- Do all of them succeed? -/
def succeeds : List Op → St → Bool
  | [], _ => true
  | op :: ops, s => match step exCfg s op with
    | .ok s1 => succeeds ops s1
    | .error _ => false

/-- No `finish_destroy` among them (that one asks for more). -/
def plain : Op → Bool
  | .finishDestroy _ => false
  | _ => true

theorem run_after {ops : List Op} {s : St} (hp : ops.all plain = true) (h : succeeds ops s = true) : Run exCfg s ops (after ops s) := by
  induction ops generalizing s with
  | nil => exact .nil
  | cons op ops ih =>
    simp only [succeeds] at h
    simp only [after]
    simp only [List.all_cons, Bool.and_eq_true] at hp
    cases hs : step exCfg s op with
    | error e => rw [hs] at h; cases h
    | ok s1 =>
      rw [hs] at h
      refine .cons ?_ hs (ih hp.2 h)
      cases op <;> first | trivial | (exact absurd hp.1 Bool.false_ne_true)

theorem reach_run {c : Cfg} {g s s' : St} {ops : List Op} (h : Reach c g s) (hr : Run c s ops s') : Reach c g s' := by
  induction hr with
  | nil => exact h
  | cons ha hs _ ih => exact ih (.step h ha hs)

/-! ## C223 -/

/-- **C223 (creation).** Creating an asset reserves the deposit of the caller and nothing else of anybody, and makes an asset with a number
that is not in use, nothing of which exists, all roles of which are those of the named owner. -/
theorem C223_created {c : Cfg} {s s' : St} {who : Acct} {n y d : Nat} {l : Option Nat} {o : Option Acct}
    (h : step c s (.create who n y d l o) = .ok s') : ∃ id i, s.info id = none ∧ s'.info id = some i ∧
    (∀ a, a ≠ id → s'.info a = s.info a) ∧ i.data.supply = 0 ∧ (∀ w, i.data.bal w = 0) ∧ i.dec = d ∧ d ≤ 18 ∧
    i.data.min = l.getD 1 ∧ 0 < i.data.min ∧ i.destroying = false ∧
    i.owner = o.getD who ∧ i.issuer = o.getD who ∧ i.admin = o.getD who ∧ i.freezer = o.getD who ∧
    s.free who = s'.free who + s.deposit ∧ s'.reserved who = s.reserved who + s.deposit ∧
    ∀ w, w ≠ who → s'.free w = s.free w ∧ s'.reserved w = s.reserved w := by
  obtain ⟨h1, h2, h3, id, h4, h5, rfl⟩ := create_ok h
  refine ⟨id, newInfo (o.getD who) (l.getD 1) d, h5, upd_same _ _ _, fun a ha => upd_ne _ _ ha, rfl, fun _ => rfl, rfl, h1, rfl,
    Nat.pos_of_ne_zero h3, rfl, rfl, rfl, rfl, rfl, ?_, ?_, fun w hw => ⟨upd_ne _ _ hw, upd_ne _ _ hw⟩⟩
  · show s.free who = upd s.free who _ who + s.deposit
    rw [upd_same]; omega
  · show upd s.reserved who _ who = _
    rw [upd_same]

example : (step exCfg exGenesis (.create 7 4 3 6 none (some 8))).isOk = true := by decide +kernel

/-- **C223 (more of it).** The supply of an asset grows only when its issuer mints: one account gets it all. -/
theorem C223_grows {c : Cfg} {s s' : St} {op : Op} {id : Nat} {i i' : Info} (hi : s.info id = some i) (h : step c s op = .ok s')
    (hi' : s'.info id = some i') (hs : i.data.supply < i'.data.supply) :
    ∃ w x, op = .mint i.issuer id w x ∧ i.destroying = false ∧ i'.data.supply = i.data.supply + x ∧
      i'.data.bal w = i.data.bal w + x ∧ ∀ v, v ≠ w → i'.data.bal v = i.data.bal v := by
  have hc := change hi h
  rw [hi'] at hc
  cases hc with
  | same => exact absurd hs (Nat.lt_irrefl _)
  | @mint w x d h1 h2 h3 =>
    simp only [Evm20.mint, bind_ok, ensure_ok, pure_ok] at h3
    obtain ⟨_, _, _, _, _, _, rfl⟩ := h3
    exact ⟨w, x, rfl, h2, rfl, upd_same _ _ _, fun v hv => upd_ne _ _ hv⟩
  | @burn w x d h1 h2 h3 =>
    simp only [Evm20.burn, bind_ok, ensure_ok, pure_ok] at h3
    obtain ⟨_, _, _, _, rfl⟩ := h3
    exact absurd hs (Nat.not_lt.mpr (Nat.sub_le _ _))
  | @move w dst x k d h1 h2 h3 =>
    simp only [Evm20.move, bind_ok, ensure_ok] at h3
    obtain ⟨_, _, _, _, _, _, h3⟩ := h3
    split at h3 <;> (simp only [pure_ok] at h3; subst h3; exact absurd hs (Nat.lt_irrefl _))
  | team _ => exact absurd hs (Nat.lt_irrefl _)
  | owner _ => exact absurd hs (Nat.lt_irrefl _)
  | info _ => exact absurd hs (Nat.lt_irrefl _)
  | start => exact absurd hs (Nat.lt_irrefl _)
  | accounts _ => exact absurd hs (Nat.lt_irrefl _)

/-- **C223 (less of it).** The supply of an asset falls only when its admin burns, by what one account loses: at most what was asked for,
unless less than the minimum would be left. -/
theorem C223_falls {c : Cfg} {s s' : St} {op : Op} {id : Nat} {i i' : Info} (hi : s.info id = some i) (h : step c s op = .ok s')
    (hi' : s'.info id = some i') (hs : i'.data.supply < i.data.supply) :
    ∃ w x, op = .burnFrom i.admin id w x ∧ i.destroying = false ∧ i'.data.supply = i.data.supply - (i.data.bal w - i'.data.bal w) ∧
      (i.data.bal w ≤ i'.data.bal w + x ∨ (i.data.bal w < x + i.data.min ∧ i'.data.bal w = 0)) ∧
      ∀ v, v ≠ w → i'.data.bal v = i.data.bal v := by
  have hc := change hi h
  rw [hi'] at hc
  cases hc with
  | same => exact absurd hs (Nat.lt_irrefl _)
  | @mint w x d h1 h2 h3 =>
    simp only [Evm20.mint, bind_ok, ensure_ok, pure_ok] at h3
    obtain ⟨_, _, _, _, _, _, rfl⟩ := h3
    exact absurd hs (Nat.not_lt.mpr (Nat.le_add_right _ _))
  | @burn w x d h1 h2 h3 =>
    simp only [Evm20.burn, bind_ok, ensure_ok, pure_ok] at h3
    obtain ⟨_, _, _, hr, rfl⟩ := h3
    have hd : min x (Evm20.reducible i.data w) + Evm20.dust i.data w (min x (Evm20.reducible i.data w)) ≤ i.data.bal w := by
      unfold Evm20.reducible Evm20.dust at *
      split <;> omega
    refine ⟨w, x, rfl, h2, ?_, ?_, fun v hv => upd_ne _ _ hv⟩
    · show i.data.supply - _ = i.data.supply - (i.data.bal w - upd i.data.bal w _ w)
      rw [upd_same]
      omega
    · show i.data.bal w ≤ upd i.data.bal w _ w + x ∨ (_ ∧ upd i.data.bal w _ w = 0)
      rw [upd_same]
      unfold Evm20.dust at hd ⊢
      unfold Evm20.reducible at *
      split
      · rename_i hq
        right
        omega
      · left
        omega
  | @move w dst x k d h1 h2 h3 =>
    simp only [Evm20.move, bind_ok, ensure_ok] at h3
    obtain ⟨_, _, _, _, _, _, h3⟩ := h3
    split at h3 <;> (simp only [pure_ok] at h3; subst h3; exact absurd hs (Nat.lt_irrefl _))
  | team _ => exact absurd hs (Nat.lt_irrefl _)
  | owner _ => exact absurd hs (Nat.lt_irrefl _)
  | info _ => exact absurd hs (Nat.lt_irrefl _)
  | start => exact absurd hs (Nat.lt_irrefl _)
  | accounts _ => exact absurd hs (Nat.lt_irrefl _)

/-- **C223 (losing it).** An account has less of an asset only because it sent some, the admin burned some, or the owner has begun to
destroy the asset. -/
theorem C223_loses {c : Cfg} {s s' : St} {op : Op} {id : Nat} {i i' : Info} {v : Acct} (hi : s.info id = some i)
    (h : step c s op = .ok s') (hi' : s'.info id = some i') (hs : i'.data.bal v < i.data.bal v) :
    (∃ dst x k, op = .transfer v id dst x k ∧ i.destroying = false) ∨ (∃ x, op = .burnFrom i.admin id v x ∧ i.destroying = false) ∨
    (∃ ws, op = .destroyAccounts id ws ∧ v ∈ ws ∧ i.destroying = true) := by
  have hc := change hi h
  rw [hi'] at hc
  cases hc with
  | same => exact absurd hs (Nat.lt_irrefl _)
  | @mint w x d h1 h2 h3 =>
    simp only [Evm20.mint, bind_ok, ensure_ok, pure_ok] at h3
    obtain ⟨_, _, _, _, _, _, rfl⟩ := h3
    exfalso
    change upd i.data.bal w _ v < _ at hs
    by_cases e : v = w
    · subst e; rw [upd_same] at hs; omega
    · rw [upd_ne _ _ e] at hs; exact absurd hs (Nat.lt_irrefl _)
  | @burn w x d h1 h2 h3 =>
    simp only [Evm20.burn, bind_ok, ensure_ok, pure_ok] at h3
    obtain ⟨_, _, _, hr, rfl⟩ := h3
    change upd i.data.bal w _ v < _ at hs
    by_cases e : v = w
    · subst e; exact .inr (.inl ⟨x, rfl, h2⟩)
    · rw [upd_ne _ _ e] at hs; exact absurd hs (Nat.lt_irrefl _)
  | @move w dst x k d h1 h2 h3 =>
    simp only [Evm20.move, bind_ok, ensure_ok] at h3
    obtain ⟨_, _, _, _, _, _, h3⟩ := h3
    split at h3
    · simp only [pure_ok] at h3; subst h3; exact absurd hs (Nat.lt_irrefl _)
    · rename_i hne
      simp only [pure_ok] at h3
      subst h3
      change upd (upd i.data.bal w _) dst _ v < _ at hs
      by_cases e : v = dst
      · subst e; rw [upd_same] at hs; omega
      · rw [upd_ne _ _ e] at hs
        by_cases e2 : v = w
        · subst e2; exact .inl ⟨dst, x, k, rfl, h2⟩
        · rw [upd_ne _ _ e2] at hs; exact absurd hs (Nat.lt_irrefl _)
  | team _ => exact absurd hs (Nat.lt_irrefl _)
  | owner _ => exact absurd hs (Nat.lt_irrefl _)
  | info _ => exact absurd hs (Nat.lt_irrefl _)
  | start => exact absurd hs (Nat.lt_irrefl _)
  | @accounts ws h1 =>
    change (if v ∈ ws then 0 else i.data.bal v) < _ at hs
    by_cases e : v ∈ ws
    · exact .inr (.inr ⟨ws, rfl, e, h1⟩)
    · rw [if_neg e] at hs; exact absurd hs (Nat.lt_irrefl _)

/-- **C223 (roles).** Only the owner of an asset changes who its owner, issuer, admin and freezer are, or begins to destroy it; it is gone
only when it was being destroyed and nobody holds any. -/
theorem C223_roles {c : Cfg} {s s' : St} {op : Op} {id : Nat} {i : Info} (hi : s.info id = some i) (ha : allowed s op)
    (h : step c s op = .ok s') :
    (s'.info id = none ∧ op = .finishDestroy id ∧ i.destroying = true ∧ ∀ w, i.data.bal w = 0) ∨
    ∃ i', s'.info id = some i' ∧
      (i'.owner ≠ i.owner → op = .transferOwnership i.owner id i'.owner) ∧
      (i'.issuer ≠ i.issuer ∨ i'.admin ≠ i.admin ∨ i'.freezer ≠ i.freezer →
        op = .setTeam i.owner id i'.issuer i'.admin i'.freezer) ∧
      (i'.destroying ≠ i.destroying → op = .startDestroy i.owner id ∧ i'.destroying = true) := by
  have hc := change hi h
  generalize hv : s'.info id = v at hc
  cases hc with
  | finish h1 => exact .inl ⟨rfl, rfl, h1, ha i hi⟩
  | same => exact .inr ⟨i, rfl, fun q => absurd rfl q, fun q => by rcases q with q | q | q <;> exact absurd rfl q, fun q => absurd rfl q⟩
  | mint => exact .inr ⟨_, rfl, fun q => absurd rfl q, fun q => by rcases q with q | q | q <;> exact absurd rfl q, fun q => absurd rfl q⟩
  | burn => exact .inr ⟨_, rfl, fun q => absurd rfl q, fun q => by rcases q with q | q | q <;> exact absurd rfl q, fun q => absurd rfl q⟩
  | move => exact .inr ⟨_, rfl, fun q => absurd rfl q, fun q => by rcases q with q | q | q <;> exact absurd rfl q, fun q => absurd rfl q⟩
  | team => exact .inr ⟨_, rfl, fun q => absurd rfl q, fun _ => rfl, fun q => absurd rfl q⟩
  | owner => exact .inr ⟨_, rfl, fun _ => rfl, fun q => by rcases q with q | q | q <;> exact absurd rfl q, fun q => absurd rfl q⟩
  | info => exact .inr ⟨_, rfl, fun q => absurd rfl q, fun q => by rcases q with q | q | q <;> exact absurd rfl q, fun q => absurd rfl q⟩
  | start => exact .inr ⟨_, rfl, fun q => absurd rfl q, fun q => by rcases q with q | q | q <;> exact absurd rfl q, fun _ => ⟨rfl, rfl⟩⟩
  | accounts => exact .inr ⟨_, rfl, fun q => absurd rfl q, fun q => by rcases q with q | q | q <;> exact absurd rfl q, fun q => absurd rfl q⟩

/-- **C223 (the native token).** Whatever is created, minted, burned, managed or destroyed, there is as much of the native token as before. -/
theorem C223_native {c : Cfg} {g s : St} {n : Nat} (h : Reach c g s) (hn : TotalIs (fun w => g.free w + g.reserved w) n) :
    TotalIs (fun w => s.free w + s.reserved w) n := by
  induction h with
  | init _ => exact hn
  | step hr _ hs ih => exact total_step (inv_reach hr) hs ih

/-- **C223 (numbers).** A number given to an asset is never given to another one, not even after the asset is destroyed. -/
theorem C223_once {c : Cfg} {g s s1 s2 s3 : St} {ops : List Op} {w w' : Acct} {n y d n' y' d' : Nat} {l l' : Option Nat}
    {o o' : Option Acct} {id : Nat} (hr : Reach c g s) (h1 : step c s (.create w n y d l o) = .ok s1) (hid : s.info id = none)
    (hid1 : s1.info id ≠ none) (hrun : Run c s1 ops s2) (h2 : step c s2 (.create w' n' y' d' l' o') = .ok s3) :
    s3.info id = s2.info id := by
  obtain ⟨_, _, _, a, e1, _, rfl⟩ := create_ok h1
  obtain ⟨_, _, _, b, e2, _, rfl⟩ := create_ok h2
  have hI := inv_reach hr
  have hI2 := inv_run hrun (inv_step hI h1)
  have ea : id = a := by
    by_contra q
    exact hid1 ((upd_ne _ _ q).trans hid)
  subst ea
  have hle := next_run hrun
  refine upd_ne _ _ fun q => ?_
  subst q
  have := (Nft.uuid_inj e1 e2 (by have := hI.next; unfold U32; omega) (by have := hI2.next; unfold U32; omega)).1
  change s.next + 1 ≤ _ at hle
  omega

/-- An asset made by 7 for 8, minted, sent, burned; its issuer replaced, its metadata changed. -/
def exOps : List Op :=
  [.create 7 4 3 6 none (some 8), .mint 8 exId 9 100, .transfer 9 exId 7 40 false, .burnFrom 8 exId 7 15, .setTeam 8 exId 7 8 8,
   .mint 7 exId 9 5, .setMetadata 8 exId 4 3 18, .transferOwnership 8 exId 7, .transfer 7 1 9 300 true, .setDeposit 20,
   .create 7 1 1 0 (some 5) none]

example : succeeds exOps exGenesis = true ∧ ((after exOps exGenesis).info exId).map (fun i => (i.data.supply, i.data.bal 7, i.data.bal 9, i.owner,
    i.issuer, i.dec)) = some (90, 25, 65, 7, 7, 18) ∧ (after exOps exGenesis).reserved 7 = 105 ∧ (after exOps exGenesis).free 8 = 425 ∧
    (after exOps exGenesis).paid 7 = 30 := by decide +kernel

example : Reach exCfg exGenesis (after exOps exGenesis) := reach_run (.init exGenesis_ok) (run_after (by decide) (by decide +kernel))

/-! ## C224 -/

/-- **C224 (who changes them).** The decimals of an asset change only when its owner says so. -/
theorem C224_owner_partial {c : Cfg} {s s' : St} {op : Op} {id : Nat} {i i' : Info} (hi : s.info id = some i) (h : step c s op = .ok s')
    (hi' : s'.info id = some i') (hd : i'.dec ≠ i.dec) : ∃ n y, op = .setMetadata i.owner id n y i'.dec ∧ i.destroying = false := by
  have hc := change hi h
  rw [hi'] at hc
  cases hc with
  | @info n y d h1 => exact ⟨n, y, rfl, h1⟩
  | _ => exact absurd rfl hd

/-- A step makes no asset with more than 18 decimals. -/
theorem made_le {c : Cfg} {s s' : St} {op : Op} {id : Nat} {i' : Info} (hi : s.info id = none) (h : step c s op = .ok s')
    (hi' : s'.info id = some i') : i'.dec ≤ 18 := by
  have key : ∀ {a : Nat} {j : Info} {v : Option Info}, s.info a = some j → upd s.info a v id = some i' → False := by
    intro a j v hj hv
    by_cases e : id = a
    · subst e; rw [hi] at hj; cases hj
    · rw [upd_ne _ _ e, hi] at hv; cases hv
  cases op with
  | create w n y d l o =>
    obtain ⟨h1, _, _, a, _, _, rfl⟩ := create_ok h
    change upd s.info a _ id = _ at hi'
    by_cases e : id = a
    · subst e
      rw [upd_same] at hi'
      rw [← Option.some.inj hi']
      exact h1
    · rw [upd_ne _ _ e, hi] at hi'; cases hi'
  | mint w a t x =>
    obtain ⟨h1, ⟨_, rfl⟩ | ⟨j, d, h2, h3, h4, h5, rfl⟩⟩ := mint_ok h
    · rw [hi] at hi'; cases hi'
    · exact (key h2 hi').elim
  | burnFrom w a t x =>
    obtain ⟨h1, ⟨_, rfl⟩ | ⟨j, d, h2, h3, h4, h5, rfl⟩⟩ := burnFrom_ok h
    · rw [hi] at hi'; cases hi'
    · exact (key h2 hi').elim
  | transfer w a t x k =>
    rcases transfer_ok h with ⟨_, _, _, rfl⟩ | ⟨h1, j, d, h2, h3, _, h5, rfl⟩
    · change s.info id = _ at hi'
      rw [hi] at hi'; cases hi'
    · exact (key h2 hi').elim
  | setTeam w a x y f =>
    obtain ⟨j, h1, h2, h3, rfl⟩ := setTeam_ok h
    exact (key h1 hi').elim
  | transferOwnership w a t =>
    obtain ⟨j, h1, h2, h3, rfl⟩ := transferOwnership_ok h
    exact (key h1 hi').elim
  | setMetadata w a n' y d =>
    obtain ⟨j, h1, h2, h3, h4, rfl⟩ := setMetadata_ok h
    exact (key h1 hi').elim
  | startDestroy w a =>
    obtain ⟨j, h1, h3, rfl⟩ := startDestroy_ok h
    exact (key h1 hi').elim
  | destroyAccounts a ws =>
    obtain ⟨j, h1, h2, rfl⟩ := destroyAccounts_ok h
    exact (key h1 hi').elim
  | finishDestroy a =>
    obtain ⟨j, h1, h2, rfl⟩ := finishDestroy_ok h
    exact (key h1 hi').elim
  | setDeposit x =>
    simp only [step, Except.ok.injEq] at h
    subst h
    change s.info id = _ at hi'
    rw [hi] at hi'; cases hi'

theorem le_run {c : Cfg} {s s' : St} {ops : List Op} {id : Nat} (hrun : Run c s ops s')
    (hno : ∀ w n y d, Op.setMetadata w id n y d ∈ ops → d ≤ 18) (h : ∀ i, s.info id = some i → i.dec ≤ 18) :
    ∀ i, s'.info id = some i → i.dec ≤ 18 := by
  induction hrun with
  | nil => exact h
  | @cons s s1 s' op ops ha hs _ ih =>
    refine ih (fun w n y d q => hno w n y d (List.mem_cons_of_mem _ q)) fun i1 hi1 => ?_
    cases hi : s.info id with
    | none => exact made_le hi hs hi1
    | some i =>
      by_cases e : i1.dec = i.dec
      · rw [e]; exact h i hi
      · obtain ⟨n, y, q, _⟩ := C224_owner_partial hi hs hi1 e
        exact hno _ _ _ _ (by rw [q]; exact List.mem_cons_self)

/-- **C224 (what holds).** In every history in which owners set no more than 18 decimals, no asset has more. -/
theorem C224_bound_partial {c : Cfg} {g s : St} {ops : List Op} {id : Nat} {i : Info} (hg : Genesis g) (hrun : Run c g ops s)
    (hno : ∀ w n y d, Op.setMetadata w id n y d ∈ ops → d ≤ 18) (hi : s.info id = some i) : i.dec ≤ 18 :=
  le_run hrun hno (fun j hj => by rw [hg.info] at hj; cases hj) i hi

/-- The asset of 8, of which 9 holds a hundred. -/
def exHeld : List Op := [.create 7 4 3 6 none (some 8), .mint 8 exId 9 100]

example : succeeds exHeld exGenesis = true ∧ ((after exHeld exGenesis).info exId).map (·.dec) = some 6 := by decide +kernel

/-- **C224 is false.** The decimals of an asset are neither bounded by 18 nor fixed: its owner sets them to 255 while others hold it. -/
theorem C224_decimals_refuted : ∃ s s' : St, Reach exCfg exGenesis s ∧ Reach exCfg exGenesis s' ∧
    (s.info exId).map (fun i => (i.dec, i.data.bal 9)) = some (6, 100) ∧
    step exCfg s (.setMetadata 8 exId 4 3 255) = .ok s' ∧ (s'.info exId).map (fun i => (i.dec, i.data.bal 9)) = some (255, 100) := by
  have h := reach_run (.init exGenesis_ok) (run_after (ops := exHeld) (by decide) (by decide +kernel))
  have e : (step exCfg (after exHeld exGenesis) (.setMetadata 8 exId 4 3 255)).isOk = true := by decide +kernel
  cases hs : step exCfg (after exHeld exGenesis) (.setMetadata 8 exId 4 3 255) with
  | error q => rw [hs] at e; cases e
  | ok s' =>
    refine ⟨_, s', h, .step (op := .setMetadata 8 exId 4 3 255) h trivial hs, by decide +kernel, hs, ?_⟩
    have q : (match step exCfg (after exHeld exGenesis) (.setMetadata 8 exId 4 3 255) with
      | .ok s' => (s'.info exId).map (fun i => (i.dec, i.data.bal 9))
      | .error _ => none) = some (255, 100) := by decide +kernel
    rw [hs] at q
    exact q

/-! ## C225 -/

/-- **C225 (the metadata).** Destroying an asset gives its owner back exactly what was reserved for its metadata, and touches nothing else of
the native token. -/
theorem C225_metadata_partial {c : Cfg} {g s s' : St} {id : Nat} {i : Info} (hr : Reach c g s) (hi : s.info id = some i)
    (h : step c s (.finishDestroy id) = .ok s') :
    s'.free i.owner = s.free i.owner + i.metaDeposit ∧ s.reserved i.owner = s'.reserved i.owner + i.metaDeposit ∧
    (∀ w, w ≠ i.owner → s'.free w = s.free w ∧ s'.reserved w = s.reserved w) ∧ s'.info id = none := by
  obtain ⟨j, h1, _, rfl⟩ := finishDestroy_ok h
  rw [hi] at h1
  cases h1
  have hle := (inv_reach hr).owner_le hi
  refine ⟨?_, ?_, fun w hw => ⟨upd_ne _ _ hw, upd_ne _ _ hw⟩, upd_same _ _ _⟩
  · show upd s.free i.owner _ i.owner = _
    rw [upd_same]; omega
  · show _ = upd s.reserved i.owner _ i.owner + _
    rw [upd_same]; omega

/-- What accounts pay for creating assets, in a history. -/
inductive Paid (c : Cfg) (w : Acct) : St → St → Nat → Prop
  | nil {s : St} : Paid c w s s 0
  | create {s s1 s' : St} {n y d t : Nat} {l : Option Nat} {o : Option Acct} : Paid c w s s1 t →
      step c s1 (.create w n y d l o) = .ok s' → Paid c w s s' (t + s1.deposit)
  | other {s s1 s' : St} {op : Op} {t : Nat} : Paid c w s s1 t → allowed s1 op → (∀ n y d l o, op ≠ .create w n y d l o) →
      step c s1 op = .ok s' → Paid c w s s' t

theorem paid_same {c : Cfg} {s s' : St} {op : Op} {w : Acct} (hne : ∀ n y d l o, op ≠ .create w n y d l o)
    (h : step c s op = .ok s') : s'.paid w = s.paid w := by
  cases op with
  | create v n y d l o =>
    obtain ⟨_, _, _, a, _, _, rfl⟩ := create_ok h
    have e : w ≠ v := by rintro rfl; exact hne n y d l o rfl
    exact upd_ne _ _ e
  | mint w a t x =>
    obtain ⟨h1, ⟨_, rfl⟩ | ⟨j, d, h2, h3, h4, h5, rfl⟩⟩ := mint_ok h <;> rfl
  | burnFrom w a t x =>
    obtain ⟨h1, ⟨_, rfl⟩ | ⟨j, d, h2, h3, h4, h5, rfl⟩⟩ := burnFrom_ok h <;> rfl
  | transfer w a t x k =>
    rcases transfer_ok h with ⟨_, _, _, rfl⟩ | ⟨h1, j, d, h2, h3, _, h5, rfl⟩ <;> rfl
  | setTeam w a x y f =>
    obtain ⟨j, h1, h2, h3, rfl⟩ := setTeam_ok h
    rfl
  | transferOwnership w a t =>
    obtain ⟨j, h1, h2, h3, rfl⟩ := transferOwnership_ok h
    rfl
  | setMetadata w a n' y d =>
    obtain ⟨j, h1, h2, h3, h4, rfl⟩ := setMetadata_ok h
    rfl
  | startDestroy w a =>
    obtain ⟨j, h1, h3, rfl⟩ := startDestroy_ok h
    rfl
  | destroyAccounts a ws =>
    obtain ⟨j, h1, h2, rfl⟩ := destroyAccounts_ok h
    rfl
  | finishDestroy a =>
    obtain ⟨j, h1, h2, rfl⟩ := finishDestroy_ok h
    rfl
  | setDeposit x =>
    simp only [step, Except.ok.injEq] at h
    subst h
    rfl

theorem paid_eq {c : Cfg} {g s : St} {w : Acct} {t : Nat} (hg : Genesis g) (h : Paid c w g s t) : Inv s ∧ s.paid w = t := by
  induction h with
  | nil => exact ⟨inv_reach (c := c) (.init hg), hg.paid w⟩
  | create _ hs ih =>
    refine ⟨inv_step ih.1 hs, ?_⟩
    obtain ⟨_, _, _, a, _, _, rfl⟩ := create_ok hs
    show upd _ w _ w = _
    rw [upd_same, ih.2]
  | other _ _ hne hs ih => exact ⟨inv_step ih.1 hs, by rw [paid_same hne hs]; exact ih.2⟩

/-- **C225 (what happens instead).** Whatever an account has paid for creating assets stays reserved in every history: no call of these
pallets gives any of it back. -/
theorem C225_kept {c : Cfg} {g s : St} {w : Acct} {t : Nat} (hg : Genesis g) (h : Paid c w g s t) : t ≤ s.reserved w := by
  obtain ⟨hI, e⟩ := paid_eq hg h
  obtain ⟨m, _, h2⟩ := hI.res w
  omega

/-- An asset made and taken down again by its owner; nobody ever held any. -/
def exDown : List Op := [.create 7 4 3 6 none none, .setMetadata 7 exId 4 3 8, .startDestroy 7 exId]

/-- **C225 is false.** After an asset is destroyed, what its creator had reserved for making it is not given back: 10 of 1000 are still
reserved, and there is no asset left. -/
theorem C225_returned_refuted : ∃ s : St, Reach exCfg exGenesis s ∧ (∀ id, s.info id = none) ∧ s.free 7 = 990 ∧ s.reserved 7 = 10 ∧
    exGenesis.free 7 = 1000 := by
  have h := reach_run (.init exGenesis_ok) (run_after (ops := exDown) (by decide) (by decide +kernel))
  have e : succeeds [.finishDestroy exId] (after exDown exGenesis) = true := by decide +kernel
  cases hs : step exCfg (after exDown exGenesis) (.finishDestroy exId) with
  | error q => simp only [succeeds, hs] at e; cases e
  | ok s' =>
    have a : allowed (after exDown exGenesis) (.finishDestroy exId) := by
      intro i hi w
      have q : (after exDown exGenesis).info exId = some { newInfo 7 1 8 with
        metaDeposit := 75
        destroying := true } := rfl
      rw [q] at hi
      cases hi
      rfl
    have f : after [.finishDestroy exId] (after exDown exGenesis) = s' := by simp only [after, hs]
    refine ⟨s', .step h a hs, ?_, ?_, ?_, rfl⟩
    · intro id
      obtain ⟨j, h1, h2, rfl⟩ := finishDestroy_ok hs
      show upd (after exDown exGenesis).info exId none id = none
      by_cases q : id = exId
      · subst q; exact upd_same _ _ _
      · rw [upd_ne _ _ q]
        show upd (upd (upd exGenesis.info exId _) exId _) exId _ id = none
        rw [upd_ne _ _ q, upd_ne _ _ q, upd_ne _ _ q]
        rfl
    · rw [← f]; decide +kernel
    · rw [← f]; decide +kernel

example : ∃ s, Paid exCfg 7 exGenesis s 10 := by
  cases h : step exCfg exGenesis (.create 7 4 3 6 none none) with
  | error e =>
    have : (step exCfg exGenesis (.create 7 4 3 6 none none)).isOk = true := by decide +kernel
    rw [h] at this; cases this
  | ok s => exact ⟨s, .create .nil h⟩

end Verif.Asset
