import Verif.Xrpl.Demo

/-!
# C231: what root sets for the XRPL bridge takes effect and stays
-/

namespace Verif.Xrpl

/-- What root decides: the relayers, from which amount on and how long withdrawals of an asset are delayed, the fee and address of each door,
and which asset stands for which currency. -/
structure Settings where
  relayer : Acct → Bool
  delay : AssetId → Option (Nat × Nat)
  fee : Door → Nat
  door : Door → Option Addr
  toXrpl : AssetId → Option Cur
  toAsset : Cur → Option AssetId

/-- Root's word. Removing a mapping removes it in both directions. -/
def said (k : Settings) : Op → Settings
  | .setRelayer w b => { k with relayer := fun x => if x = w then b else k.relayer x }
  | .setDelay a v => { k with delay := fun x => if x = a then v else k.delay x }
  | .setFee d x => if x < U64 then { k with fee := fun e => if e = d then x else k.fee e } else k
  | .setDoor d a => { k with door := fun e => if e = d then a else k.door e }
  | .setMap a cur => { k with
      toXrpl := fun x => if x = a then some cur else k.toXrpl x
      toAsset := fun x => if x = cur then some a else k.toAsset x }
  | .removeMap a =>
    match k.toXrpl a with
    | some cur => { k with
        toXrpl := fun x => if x = a then none else k.toXrpl x
        toAsset := fun x => if x = cur then none else k.toAsset x }
    | none => k
  | _ => k

/-- What is in force. -/
def inForce (s : St) : Settings where
  relayer := s.relayer
  delay := s.delay
  fee := s.fee
  door := s.door
  toXrpl := s.toXrpl
  toAsset := s.toAsset

theorem processOne_force {c : Cfg} {x : Hash → Bool} {s s' : St} {h : Hash} (hs : processOne c x s h = .ok s') :
    inForce s' = inForce s := by
  unfold processOne at hs
  split at hs
  · cases hs; rfl
  split at hs
  · cases hs; rfl
  split at hs
  · cases hs; rfl
  · simp only [bind_ok, pure_ok] at hs
    obtain ⟨_, _, hs⟩ := hs
    subst hs
    rfl

theorem processList_force {c : Cfg} {x : Hash → Bool} : ∀ (l : List Hash) {s s' : St}, processList c x l s = .ok s' →
    inForce s' = inForce s
  | [], _, _, h => by cases h; rfl
  | i :: l, s, s', h => by
    simp only [processList, bind_ok] at h
    obtain ⟨s1, h1, h⟩ := h
    exact (processList_force l h).trans (processOne_force h1)

theorem clearLoop_force (stop : Nat) : ∀ (ks : List Nat) (s : St), inForce (clearLoop stop ks s) = inForce s
  | [], _ => rfl
  | k :: ks, s => by
    unfold clearLoop
    split
    · split
      · rfl
      · exact (clearLoop_force stop ks _).trans rfl
    · rfl

theorem ticket_force {s : St} {d : Door} {r : St × Nat} (h : ticket s d = .ok r) : inForce r.1 = inForce s := by
  simp only [ticket, bind_ok] at h
  obtain ⟨_, _, _, _, h⟩ := h
  split at h
  · simp only [bind_ok, pure_ok] at h
    obtain ⟨_, _, _, _, h⟩ := h
    subst h
    rfl
  · simp only [pure_ok] at h
    subst h
    rfl

theorem send_force {c : Cfg} {s s' : St} {a : Addr} {w : Wd} (h : send c s a w = .ok s') : inForce s' = inForce s := by
  unfold send at h
  split at h
  · cases h; rfl
  · simp only [bind_ok, pure_ok] at h
    obtain ⟨_, _, _, _, h⟩ := h
    subst h
    rfl

theorem payOne_force (c : Cfg) (a : Addr) (s : St) (i : Nat) : inForce (payOne c a s i) = inForce s := by
  unfold payOne
  split
  · rfl
  · split
    · rename_i h
      exact (send_force h).trans rfl
    · rfl

theorem fold_force (c : Cfg) (a : Addr) : ∀ (l : List Nat) (s : St), inForce (l.foldl (payOne c a) s) = inForce s
  | [], _ => rfl
  | i :: l, s => (fold_force c a l _).trans (payOne_force c a s i)

theorem delayLoop_force (c : Cfg) (a : Addr) (m : Nat) : ∀ (ks : List Nat) (s : St), inForce (delayLoop c a m ks s) = inForce s
  | [], _ => rfl
  | k :: ks, s => by
    unfold delayLoop
    split
    · split
      · exact (fold_force c a _ _).trans rfl
      · exact (delayLoop_force c a m ks _).trans ((fold_force c a _ _).trans rfl)
    · rfl

theorem delayed_force (c : Cfg) (ks : List Nat) (s : St) : inForce (delayed c ks s) = inForce s := by
  unfold delayed
  split
  · rfl
  · exact delayLoop_force c _ _ ks s

theorem signersOne_force {s s' : St} {d : Door} (h : signersOne s d = .ok s') : inForce s' = inForce s := by
  simp only [signersOne, bind_ok, pure_ok] at h
  obtain ⟨_, _, r, hr, h⟩ := h
  subst h
  exact Eq.trans (b := inForce r.1) rfl (ticket_force hr)

theorem step_force {c : Cfg} {s s' : St} {op : Op} (h : step c s op = .ok s') : inForce s' = said (inForce s) op := by
  cases op with
  | submit w i hs d =>
    simp only [step, submit, bind_ok, pure_ok] at h
    obtain ⟨_, _, _, _, _, _, _, _, _, _, h⟩ := h
    subst h
    rfl
  | challenge w hs => cases h; rfl
  | withdraw w a x d t =>
    simp only [step, withdraw, bind_ok] at h
    obtain ⟨_, _, _, _, _, _, _, _, r, _, q, hq, h⟩ := h
    have e : inForce q.1 = inForce s := (ticket_force hq).trans rfl
    split at h
    · simp only [delayPayment, bind_ok, pure_ok] at h
      obtain ⟨_, _, _, _, h⟩ := h
      subst h
      exact Eq.trans (b := inForce q.1) rfl e
    · exact (send_force h).trans e
  | block ks ps x =>
    simp only [step, block, bind_ok] at h
    obtain ⟨_, _, h⟩ := h
    exact (processList_force _ h).trans
      (Eq.trans (b := inForce (clear c ps (delayed c ks s))) rfl ((clearLoop_force _ _ _).trans (delayed_force c ks s)))
  | nftTx d =>
    simp only [step, nftTx, bind_ok, pure_ok] at h
    obtain ⟨_, _, r, hr, h⟩ := h
    subst h
    exact Eq.trans (b := inForce r.1) rfl (ticket_force hr)
  | signers =>
    cases h
    show inForce (signers s) = inForce s
    unfold signers
    split
    · rfl
    · rename_i h1
      split
      · exact signersOne_force h1
      · rename_i h2
        exact (signersOne_force h2).trans (signersOne_force h1)
  | nextAlloc w d a b =>
    simp only [step, nextAlloc, bind_ok, pure_ok] at h
    obtain ⟨_, _, _, _, _, _, h⟩ := h
    subst h
    rfl
  | curAlloc d t a b =>
    simp only [step, curAlloc, bind_ok, pure_ok] at h
    obtain ⟨_, _, _, _, h⟩ := h
    subst h
    rfl
  | prune i =>
    simp only [step, prune, bind_ok, pure_ok] at h
    obtain ⟨_, _, _, _, h⟩ := h
    subst h
    rfl
  | setRelayer w b => cases h; rfl
  | setDelay a v => cases h; rfl
  | setFee d x =>
    simp only [step, bind_ok, ensure_ok, pure_ok] at h
    obtain ⟨_, hx, h⟩ := h
    subst h
    exact (if_pos hx).symm
  | setDoor d a => cases h; rfl
  | setMap a cur => cases h; rfl
  | removeMap a =>
    simp only [step, bind_ok, okOr_ok, pure_ok] at h
    obtain ⟨cur, hc, h⟩ := h
    subst h
    simp only [said, inForce, hc]
    rfl
  | ledger L => cases h; rfl
  | setDec a n => cases h; rfl

/-- **C231 (XRPL bridge).** After any history, failing calls included, what is in force is what root said last. -/
theorem C231_xrpl (c : Cfg) : ∀ (ops : List Op) (s : St), inForce (exec c s ops) = ops.foldl said (inForce s)
  | [], _ => rfl
  | op :: ops, s => by
    show inForce (exec c (after c s op) ops) = ops.foldl said (said (inForce s) op)
    rw [C231_xrpl c ops]
    congr 1
    unfold after
    split
    · rename_i h
      exact step_force h
    · rename_i e h
      cases op with
      | setRelayer w b => cases h
      | setDelay a v => cases h
      | setDoor d a => cases h
      | setMap a cur => cases h
      | setFee d x =>
        show inForce s = ite _ _ _
        by_cases hx : x < U64
        · exfalso
          simp only [step, ensure, if_pos hx] at h
          cases h
        · rw [if_neg hx]
      | removeMap a =>
        simp only [step] at h
        cases hc : s.toXrpl a with
        | none => simp only [said, inForce, hc]
        | some cur =>
          exfalso
          rw [hc] at h
          cases h
      | _ => rfl

/-- **C231 (XRPL bridge).** Deposits and ticket ranges are accepted only from accounts root made relayers and did not remove since. -/
theorem C231_xrpl_relayer {c : Cfg} {s s' : St} {ops : List Op} {who : Acct} {i : Nat} {h : Hash} {d : Data} {e : Door} {a b : Nat}
    (hs : step c (exec c s ops) (.submit who i h d) = .ok s' ∨ step c (exec c s ops) (.nextAlloc who e a b) = .ok s') :
    (ops.foldl said (inForce s)).relayer who = true := by
  rw [← C231_xrpl c]
  rcases hs with hs | hs
  · simp only [step, submit, bind_ok, ensure_ok] at hs
    obtain ⟨_, h1, _⟩ := hs
    exact h1
  · simp only [step, nextAlloc, bind_ok, ensure_ok] at hs
    obtain ⟨_, _, _, h1, _⟩ := hs
    exact h1

/-- **C231 (XRPL bridge).** A withdrawal is possible only while the main door has an address, and of an asset other than XRP only while root
keeps it mapped to a currency. -/
theorem C231_xrpl_withdraw {c : Cfg} {s s' : St} {ops : List Op} {who : Acct} {a : AssetId} {x : Nat} {d : Addr} {t : Option Nat}
    (h : step c (exec c s ops) (.withdraw who a x d t) = .ok s') :
    (ops.foldl said (inForce s)).door .main ≠ none ∧ (a = c.xrp ∨ (ops.foldl said (inForce s)).toXrpl a ≠ none) := by
  rw [← C231_xrpl c]
  simp only [step, withdraw, bind_ok, okOr_ok] at h
  obtain ⟨_, _, _, _, _, _, addr, h1, r, h2, _⟩ := h
  refine ⟨fun q => ?_, ?_⟩
  · rw [show (exec c s ops).door .main = none from q] at h1
    cases h1
  · unfold take at h2
    split at h2
    · rename_i e; exact .inl e
    · simp only [bind_ok, okOr_ok] at h2
      obtain ⟨cur, h3, _⟩ := h2
      exact .inr (fun q => by rw [show (exec c s ops).toXrpl a = none from q] at h3; cases h3)

-- root's word counts: a relayer is removed and another named, an asset loses its currency and the door its address
example : (submit cfg0 (exec cfg0 g0 [.setRelayer 9 true, .setRelayer 8 false]) 9 100 11 (.payment 50 7)).isOk = true ∧
    (submit cfg0 (exec cfg0 g0 [.setRelayer 9 true, .setRelayer 8 false]) 8 100 11 (.payment 50 7)).isOk = false ∧
    (exec cfg0 g0 [.setMap 3 70, .removeMap 3, .removeMap 3, .setFee .nft 5, .setFee .nft U64]).toXrpl 3 = none ∧
    (exec cfg0 g0 [.setMap 3 70, .removeMap 3, .removeMap 3, .setFee .nft 5, .setFee .nft U64]).fee .nft = 5 := by decide +kernel

end Verif.Xrpl
