import Verif.Erc20Peg.Props

/-!
# C231: what root sets for the ERC-20 bridge takes effect and stays
-/

namespace Verif.Erc20Peg

/-- What root decides: whether deposits and withdrawals are open and may be delayed, the two contracts on Ethereum, and from which amount
on and how long an asset is delayed. -/
structure Settings where
  dep : Bool
  wd : Bool
  depDelay : Bool
  wdDelay : Bool
  peg : Addr
  root : Addr
  delay : AssetId → Option (Nat × Nat)

/-- Root's word. -/
def said (k : Settings) : Op → Settings
  | .setActive d w dd wd => { k with
      dep := d
      wd := w
      depDelay := dd
      wdDelay := wd }
  | .setContracts p r => { k with
      peg := p
      root := r }
  | .setDelay a m d => { k with delay := fun x => if x = a then some (m, d) else k.delay x }
  | _ => k

/-- What is in force. -/
def inForce (s : St) : Settings where
  dep := s.depActive
  wd := s.wdActive
  depDelay := s.depDelay
  wdDelay := s.wdDelay
  peg := s.contract
  root := s.rootContract
  delay := s.delay

theorem assetFor_force {c : Cfg} {s : St} {t : Addr} {r : St × AssetId} (h : assetFor c s t = .ok r) : inForce r.1 = inForce s := by
  unfold assetFor at h
  split at h
  · cases h; rfl
  · simp only [bind_ok, pure_ok] at h
    obtain ⟨a, _, h⟩ := h
    cases h
    rfl

theorem processDeposit_force {c : Cfg} {s s' : St} {d : Dep} (h : processDeposit c s d = .ok s') : inForce s' = inForce s := by
  unfold processDeposit at h
  simp only [bind_ok, pure_ok] at h
  obtain ⟨r, hr, L, _, h⟩ := h
  subst h
  exact assetFor_force hr

theorem process_force (c : Cfg) (s : St) (id : Nat) : inForce (process c s id) = inForce s := by
  unfold process
  split
  · rfl
  · split
    · rename_i h
      exact (processDeposit_force h).trans rfl
    · rfl
  · split <;> rfl

theorem fold_force (c : Cfg) : ∀ (l : List Nat) (s : St), inForce (l.foldl (process c) s) = inForce s
  | [], _ => rfl
  | i :: l, s => (fold_force c l _).trans (process_force c s i)

theorem idleLoop_force (c : Cfg) (m : Nat) : ∀ (bs : List Nat) (s : St) (n k : Nat), inForce (idleLoop c m bs s n k).1 = inForce s
  | [], _, _, _ => rfl
  | b :: bs, s, n, k => by
    unfold idleLoop
    dsimp only
    split
    · rw [fold_force]; rfl
    · rw [idleLoop_force c m bs, fold_force]; rfl

theorem delayPayment_force (s : St) (d : Nat) (p : Payment) : inForce (delayPayment s d p) = inForce s := by
  unfold delayPayment
  split <;> rfl

theorem step_force {c : Cfg} {s s' : St} {op : Op} (h : step c s op = .ok s') : inForce s' = said (inForce s) op := by
  cases op with
  | withdraw w a x b e =>
    show _ = inForce s
    change withdraw c s w a x b e = .ok s' at h
    unfold withdraw at h
    simp only [bind_ok] at h
    obtain ⟨_, _, _, _, t, _, h⟩ := h
    split at h
    · simp only [bind_ok, pure_ok] at h
      obtain ⟨_, _, L, _, h⟩ := h
      subst h
      rw [delayPayment_force]
      rfl
    · simp only [bind_ok, pure_ok] at h
      obtain ⟨L, _, h⟩ := h
      subst h
      rfl
  | deposit src d =>
    show _ = inForce s
    change deposit c s src d = .ok s' at h
    unfold deposit at h
    simp only [bind_ok] at h
    obtain ⟨_, _, _, _, _, _, r, _, h⟩ := h
    split at h
    · simp only [pure_ok] at h
      subst h
      exact delayPayment_force _ _ _
    · simp only [bind_ok, pure_ok] at h
      obtain ⟨s1, h1, h⟩ := h
      subst h
      exact Eq.trans (b := inForce s1) rfl (processDeposit_force h1)
  | nextBlock =>
    change nextBlock c s = .ok s' at h
    unfold nextBlock at h
    simp only [bind_ok, pure_ok] at h
    obtain ⟨_, _, h⟩ := h
    subst h
    split <;> rfl
  | idle m =>
    change idle c s m = .ok s' at h
    unfold idle at h
    simp only [bind_ok, pure_ok] at h
    obtain ⟨_, _, h⟩ := h
    subst h
    exact idleLoop_force c m _ _ _ _
  | claim b id =>
    change claim c s b id = .ok s' at h
    unfold claim at h
    simp only [bind_ok, pure_ok] at h
    obtain ⟨_, _, h⟩ := h
    subst h
    exact process_force c _ _
  | setActive d w dd wd => cases h; rfl
  | setContracts p r => cases h; rfl
  | setMap a t => cases h; rfl
  | setDelay a m d => cases h; rfl
  | takeAsset =>
    change (do
      let _ ← okOr (newAsset c s.nextAsset) "NoAvailableIds"
      pure { s with nextAsset := s.nextAsset + 1 } : Except Err St) = .ok s' at h
    simp only [bind_ok, pure_ok] at h
    obtain ⟨_, _, h⟩ := h
    subst h
    rfl
  | ledger L => cases h; rfl

/-- **C231 (ERC-20 bridge).** After any history, failing calls included, what is in force is what root said last. -/
theorem C231_erc20 (c : Cfg) : ∀ (ops : List Op) (s : St), inForce (exec c s ops) = ops.foldl said (inForce s)
  | [], _ => rfl
  | op :: ops, s => by
    show inForce (exec c (after c s op) ops) = ops.foldl said (said (inForce s) op)
    rw [C231_erc20 c ops]
    unfold after
    split
    · rename_i h
      rw [step_force h]
    · rename_i e h
      congr 1
      cases op with
      | setActive d w dd wd => cases h
      | setContracts p r => cases h
      | setDelay a m d => cases h
      | _ => rfl

/-- **C231 (ERC-20 bridge).** After any history at whose end root's word is that deposits are closed, every deposit is refused; it is also
refused if it does not come from a contract root named. The same for withdrawals. -/
theorem C231_erc20_closed {c : Cfg} {s : St} {ops : List Op} {k : Settings} (hk : ops.foldl said (inForce s) = k) :
    (∀ src d s', step c (exec c s ops) (.deposit src d) = .ok s' → k.dep = true ∧ (src = k.peg ∨ src = k.root)) ∧
    ∀ w a x b e s', step c (exec c s ops) (.withdraw w a x b e) = .ok s' → k.wd = true := by
  rw [← C231_erc20 c] at hk
  subst hk
  constructor
  · intro src d s' h
    change deposit c _ src d = .ok s' at h
    unfold deposit at h
    simp only [bind_ok, ensure_ok] at h
    obtain ⟨_, h1, _, h2, _⟩ := h
    exact ⟨h2, h1⟩
  · intro w a x b e s' h
    change withdraw c _ w a x b e = .ok s' at h
    unfold withdraw at h
    simp only [bind_ok, ensure_ok] at h
    obtain ⟨_, _, _, h1, _⟩ := h
    exact h1

/-- Deposits are closed and opened again. -/
example : ([.setActive false true true true, .nextBlock, .takeAsset] : List Op).foldl said (inForce demo) = { inForce demo with
      dep := false
      wd := true
      depDelay := true
      wdDelay := true } ∧
    (step cfg0 (exec cfg0 demo [.setActive true true false false]) (.deposit demo.contract ⟨7, 10, 5⟩)).isOk = true ∧
    (step cfg0 (exec cfg0 demo [.setActive false true false false, .nextBlock]) (.deposit demo.contract ⟨7, 10, 5⟩)).isOk = false :=
  ⟨rfl, by decide +kernel, by decide +kernel⟩

/-- What an asset stands for, if root did not name it otherwise, stays. -/
theorem step_map {c : Cfg} {s s' : St} {op : Op} {t : Addr} {a : AssetId} (h : step c s op = .ok s') (ht : s.toAsset t = some a)
    (hop : ∀ b, op ≠ .setMap b t) : s'.toAsset t = some a := by
  have pd : ∀ {s s' : St} {d : Dep}, processDeposit c s d = .ok s' → s.toAsset t = some a → s'.toAsset t = some a := by
    intro s s' d h ht
    unfold processDeposit at h
    simp only [bind_ok, pure_ok] at h
    obtain ⟨r, hr, L, _, h⟩ := h
    subst h
    show r.1.toAsset t = some a
    unfold assetFor at hr
    split at hr
    · cases hr; exact ht
    · rename_i hn
      simp only [bind_ok, pure_ok] at hr
      obtain ⟨b, _, hr⟩ := hr
      cases hr
      show upd s.toAsset d.token (some b) t = some a
      rw [upd_ne _ _ (fun q => by rw [q, hn] at ht; cases ht)]
      exact ht
  have fold : ∀ (l : List Nat) (s : St), s.toAsset t = some a → (l.foldl (process c) s).toAsset t = some a := by
    intro l
    induction l with
    | nil => intro s h; exact h
    | cons i l ih => intro s h; exact ih _ (process_toAsset h)
  have loop : ∀ (m : Nat) (bs : List Nat) (s : St) (n k : Nat), s.toAsset t = some a → (idleLoop c m bs s n k).1.toAsset t = some a := by
    intro m bs
    induction bs with
    | nil => intro s n k h; exact h
    | cons b bs ih =>
      intro s n k h
      unfold idleLoop
      dsimp only
      split
      · exact fold _ _ h
      · exact ih _ _ _ (fold _ _ h)
  have dly : ∀ (s : St) d p, (delayPayment s d p).toAsset = s.toAsset := by
    intro s d p
    unfold delayPayment
    split <;> rfl
  cases op with
  | withdraw w a x b e =>
    change withdraw c s w a x b e = .ok s' at h
    unfold withdraw at h
    simp only [bind_ok] at h
    obtain ⟨_, _, _, _, t, _, h⟩ := h
    split at h
    · simp only [bind_ok, pure_ok] at h
      obtain ⟨_, _, L, _, h⟩ := h
      subst h
      rw [dly]
      exact ht
    · simp only [bind_ok, pure_ok] at h
      obtain ⟨L, _, h⟩ := h
      subst h
      exact ht
  | deposit src d =>
    change deposit c s src d = .ok s' at h
    unfold deposit at h
    simp only [bind_ok] at h
    obtain ⟨_, _, _, _, _, _, r, _, h⟩ := h
    split at h
    · simp only [pure_ok] at h
      subst h
      show (delayPayment s _ _).toAsset t = _
      rw [dly]
      exact ht
    · simp only [bind_ok, pure_ok] at h
      obtain ⟨s1, h1, h⟩ := h
      subst h
      show s1.toAsset t = some a
      exact pd h1 ht
  | nextBlock =>
    change nextBlock c s = .ok s' at h
    unfold nextBlock at h
    simp only [bind_ok, pure_ok] at h
    obtain ⟨_, _, h⟩ := h
    subst h
    split <;> exact ht
  | idle m =>
    change idle c s m = .ok s' at h
    unfold idle at h
    simp only [bind_ok, pure_ok] at h
    obtain ⟨_, _, h⟩ := h
    subst h
    exact loop _ _ _ _ _ ht
  | claim b id =>
    change claim c s b id = .ok s' at h
    unfold claim at h
    simp only [bind_ok, pure_ok] at h
    obtain ⟨_, _, h⟩ := h
    subst h
    exact process_toAsset ht
  | setActive d w dd wd => cases h; exact ht
  | setContracts p r => cases h; exact ht
  | setMap b t' =>
    cases h
    show upd s.toAsset t' (some b) t = some a
    rw [upd_ne _ _ (fun q => hop b (by rw [q]))]
    exact ht
  | setDelay a m d => cases h; exact ht
  | takeAsset =>
    change (do
      let _ ← okOr (newAsset c s.nextAsset) "NoAvailableIds"
      pure { s with nextAsset := s.nextAsset + 1 } : Except Err St) = .ok s' at h
    simp only [bind_ok, pure_ok] at h
    obtain ⟨_, _, h⟩ := h
    subst h
    exact ht
  | ledger L => cases h; exact ht

/-- **C231 (ERC-20 bridge).** After root said that a token stands for an asset, it does, until root says otherwise about that token. -/
theorem C231_erc20_map {c : Cfg} {s : St} {a : AssetId} {t : Addr} {ops : List Op} (hops : ∀ op ∈ ops, ∀ b, op ≠ .setMap b t) :
    (exec c s (.setMap a t :: ops)).toAsset t = some a := by
  have h0 : (after c s (.setMap a t)).toAsset t = some a := upd_same _ _ _
  show (exec c (after c s (.setMap a t)) ops).toAsset t = some a
  revert h0
  generalize after c s (.setMap a t) = s1
  induction ops generalizing s1 with
  | nil => exact id
  | cons op ops ih =>
    intro h0
    refine ih (fun o ho => hops o (List.mem_cons_of_mem _ ho)) _ ?_
    unfold after
    split
    · rename_i h
      exact step_map h h0 (hops op List.mem_cons_self)
    · exact h0

example : (exec cfg0 demo [.setMap 1 77, .nextBlock, .setMap 3 78]).toAsset 77 = some 1 := by decide +kernel

end Verif.Erc20Peg
