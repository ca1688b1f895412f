import Verif.Xls20.Props

/-!
# C231: what root sets for the XLS-20 pallet takes effect and stays
-/

namespace Verif.Xls20

/-- What root decides: who the relayer is and the fee of a token. -/
structure Settings where
  relayer : Option Acct
  fee : Nat

/-- Root's word. -/
def said (k : Settings) : Op → Settings
  | .setRelayer r => { k with relayer := some r }
  | .setFee f => { k with fee := f }
  | _ => k

/-- What is in force. -/
def inForce (s : St) : Settings := ⟨s.relayer, s.fee⟩

theorem request_force {c : Cfg} {s s' : St} {n : Nft.St} {who : Acct} {id : Nat} {ns : List Nat}
    (h : request c s n who id ns = .ok s') : inForce s' = inForce s := by
  simp only [request, bind_ok, pure_ok] at h
  obtain ⟨L, _, h⟩ := h
  subst h
  rfl

theorem mintInto_force (c : Cfg) (s : St) (rcv : Acct) (t id : Nat) : inForce (mintInto c s rcv t id).1 = inForce s := by
  unfold mintInto
  split <;> rfl

theorem deposit_force (c : Cfg) (s : St) (rcv : Acct) (t : Nat) : inForce (deposit c s rcv t).1 = inForce s := by
  unfold deposit
  split
  · rfl
  split
  · rfl
  split
  · exact mintInto_force c s rcv t _
  · split
    · rfl
    · split
      · rfl
      · exact (mintInto_force c _ rcv t _).trans rfl

theorem step_force {c : Cfg} {w w' : World} {op : Op} (h : step c w op = .ok w') :
    inForce w'.st = said (inForce w.st) op := by
  cases op with
  | deposit rcv t => cases h; exact deposit_force c w.st rcv t
  | withdraw who id n dest ok =>
    simp only [step, withdraw, bind_ok, pure_ok] at h
    obtain ⟨r, ⟨_, _, _, _, _, _, _, _, _, _, h1⟩, h⟩ := h
    subst h1
    subst h
    rfl
  | accept i =>
    simp only [step, bind_ok, pure_ok] at h
    obtain ⟨_, _, h⟩ := h
    subst h
    rfl
  | reRequest who id ns =>
    simp only [step, reRequest, bind_ok, pure_ok] at h
    obtain ⟨s1, ⟨_, _, _, _, _, _, _, _, _, _, _, _, _, _, _, _, h1⟩, h⟩ := h
    subst h
    exact request_force h1
  | fulfil who id l =>
    simp only [step, fulfil, bind_ok, pure_ok] at h
    obtain ⟨s1, ⟨_, _, _, _, _, _, _, _, _, _, _, _, h1⟩, h⟩ := h
    subst h1
    subst h
    rfl
  | setRelayer r => cases h; rfl
  | setFee f => cases h; rfl
  | setMappings l => cases h; rfl
  | migration b => cases h; rfl
  | nft op =>
    simp only [step, bind_ok, pure_ok] at h
    obtain ⟨s1, h1, h⟩ := h
    subst h
    show inForce s1 = inForce w.st
    unfold nftStep at h1
    split at h1
    · simp only [mint, bind_ok] at h1
      obtain ⟨n, _, k, _, h1⟩ := h1
      split at h1
      · exact request_force h1
      · simp only [pure_ok] at h1
        subst h1
        rfl
    · cases hn : Nft.step c.nft w.st.nft op with
      | error e => rw [hn] at h1; cases h1
      | ok n => rw [hn] at h1; cases h1; rfl

/-- **C231 (XLS-20).** After any history, failing calls included, what is in force is what root said last. -/
theorem C231_xls20 (c : Cfg) : ∀ (ops : List Op) (w : World), inForce (exec c w ops).st = ops.foldl said (inForce w.st)
  | [], _ => rfl
  | op :: ops, w => by
    show inForce (exec c _ ops).st = ops.foldl said (said (inForce w.st) op)
    rw [C231_xls20 c ops]
    split
    · rename_i h
      rw [step_force h]
    · rename_i e h
      congr 1
      cases op with
      | setRelayer r => cases h
      | setFee f => cases h
      | _ => rfl

/-- **C231 (XLS-20).** Token ids are accepted only from the relayer root named last. -/
theorem C231_xls20_relayer {c : Cfg} {w w' : World} {ops : List Op} {who : Acct} {id : Nat} {l : List (Nat × Nat)}
    (h : step c (exec c w ops) (.fulfil who id l) = .ok w') : (ops.foldl said (inForce w.st)).relayer = some who := by
  rw [← C231_xls20 c]
  simp only [step, fulfil, bind_ok, ensure_ok] at h
  obtain ⟨_, ⟨_, _, _, _, _, _, _, h1, _⟩, _⟩ := h
  exact h1.symm

-- the relayer named last delivers, the one before may not any more
example : (step cfg0 (exec cfg0 g0 [.setRelayer 4, .setFee 7, .setRelayer 5, .accept 3]) (.fulfil 4 1 [(0, 7)])).isOk = false ∧
    (exec cfg0 g0 [.setRelayer 4, .setFee 7, .setRelayer 5, .accept 3]).st.fee = 7 := by decide +kernel

example : (([.setRelayer 4, .setFee 7, .setRelayer 5, .accept 3] : List Op).foldl said (inForce g0.st)).relayer = some 5 := rfl

end Verif.Xls20
