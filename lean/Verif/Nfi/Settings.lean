import Verif.Nfi.Props

/-!
# C231: what root sets for the NFI pallet takes effect and stays
-/

namespace Verif.Nfi

/-- What root decides: the relayer, the account that gets the network's share, the fee, the number of the chain. -/
structure Settings where
  relayer : Option Acct
  feeTo : Option Acct
  fee : Option Fee
  chain : Nat

/-- Root's word; a fee of zero is not accepted. -/
def said (k : Settings) : Op → Settings
  | .setRelayer r => { k with relayer := some r }
  | .setFeeTo a => { k with feeTo := a }
  | .setFee none => { k with fee := none }
  | .setFee (some f) => if f.amount = 0 then k else { k with fee := some f }
  | .setChain n => { k with chain := n }
  | _ => k

/-- What is in force. -/
def inForce (s : St) : Settings := ⟨s.relayer, s.feeTo, s.fee, s.chain⟩

theorem request_force {c : Cfg} {s s' : St} {who : Acct} {id : Nat} {ns : List Nat} (h : request c s who id ns = .ok s') :
    inForce s' = inForce s := by
  unfold request at h
  split at h
  · cases h; rfl
  · simp only [bind_ok, pure_ok] at h
    obtain ⟨L, _, h⟩ := h
    subst h
    have : ∀ (l : List Nat) (s : St), inForce (l.foldl (fun s n => send s who (trn s id n)) s) = inForce s := by
      intro l
      induction l with
      | nil => intro s; rfl
      | cons n l ih => intro s; exact ih _
    exact this ns _

theorem step_force {c : Cfg} {s s' : St} {op : Op} (h : step c s op = .ok s') : inForce s' = said (inForce s) op := by
  cases op with
  | setRelayer r => cases h; rfl
  | setFeeTo a => cases h; rfl
  | setFee f =>
    simp only [step, bind_ok, ensure_ok, pure_ok] at h
    obtain ⟨_, hf, h⟩ := h
    subst h
    cases f with
    | none => rfl
    | some f => exact (if_neg (hf f rfl)).symm
  | enable who id =>
    simp only [step, enable, bind_ok, pure_ok] at h
    obtain ⟨_, _, h⟩ := h
    subst h
    rfl
  | manual who t =>
    simp only [step, manual, bind_ok, pure_ok] at h
    obtain ⟨_, _, _, _, h⟩ := h
    subst h
    rfl
  | submit who t d =>
    simp only [step, submit, bind_ok, pure_ok] at h
    obtain ⟨_, _, _, _, h⟩ := h
    subst h
    rfl
  | setChain n => cases h; rfl
  | nft op =>
    change nftStep c s op = .ok s' at h
    show inForce s' = inForce s
    unfold nftStep at h
    split at h
    · simp only [nftMint, bind_ok] at h
      obtain ⟨_, _, n, _, h⟩ := h
      exact (request_force h).trans rfl
    · simp only [bind_ok, pure_ok] at h
      obtain ⟨_, _, h⟩ := h
      subst h
      rfl
    · simp only [bind_ok, pure_ok] at h
      obtain ⟨_, _, h⟩ := h
      subst h
      rfl
    · simp only [bind_ok, pure_ok] at h
      obtain ⟨_, _, h⟩ := h
      subst h
      rfl
  | sft op =>
    change sftStep c s op = .ok s' at h
    show inForce s' = inForce s
    unfold sftStep at h
    split at h
    · simp only [sftCreateToken, bind_ok, pure_ok] at h
      obtain ⟨_, _, _, _, s1, h1, _, _, h⟩ := h
      subst h
      exact Eq.trans (b := inForce s1) rfl (request_force h1)
    · simp only [bind_ok, pure_ok] at h
      obtain ⟨_, _, h⟩ := h
      subst h
      rfl

/-- **C231 (NFI).** After any history, failing calls included, what is in force is what root said last. -/
theorem C231_nfi (c : Cfg) : ∀ (ops : List Op) (s : St), inForce (exec c s ops) = ops.foldl said (inForce s)
  | [], _ => rfl
  | op :: ops, s => by
    show inForce (exec c _ ops) = ops.foldl said (said (inForce s) op)
    rw [C231_nfi c ops]
    split
    · rename_i h
      rw [step_force h]
    · rename_i e h
      congr 1
      cases op with
      | setRelayer r => cases h
      | setFeeTo a => cases h
      | setChain n => cases h
      | setFee f =>
        cases f with
        | none =>
          exfalso
          simp only [step] at h
          rw [show (ensure (∀ x : Fee, (none : Option Fee) = some x → x.amount ≠ 0) "InvalidMintFee") = Except.ok () from
            if_pos (fun _ q => nomatch q)] at h
          cases h
        | some f =>
          show inForce s = if f.amount = 0 then inForce s else _
          by_cases hf : f.amount = 0
          · rw [if_pos hf]
          · exfalso
            simp only [step] at h
            rw [show (ensure (∀ x : Fee, some f = some x → x.amount ≠ 0) "InvalidMintFee") = Except.ok () from
              if_pos (fun x q => by cases q; exact hf)] at h
            cases h
      | _ => rfl

/-- **C231 (NFI).** Data is accepted only from the relayer root named last. -/
theorem C231_nfi_relayer {c : Cfg} {s s' : St} {ops : List Op} {who : Acct} {t : Tid} {d : Nat}
    (h : step c (exec c s ops) (.submit who t d) = .ok s') : (ops.foldl said (inForce s)).relayer = some who := by
  rw [← C231_nfi c]
  simp only [step, submit, bind_ok, ensure_ok] at h
  obtain ⟨_, h1, _⟩ := h
  exact h1

-- the relayer named last delivers, the one before may not any more; a fee of zero is refused and changes nothing
example : (exec cfg0 g0 [.setRelayer 4, .setRelayer 5, .setFeeTo (some 3), .setFee (some ⟨2, 7, 6⟩), .setFee (some ⟨2, 0, 6⟩)]).relayer = some 5 ∧
    (exec cfg0 g0 [.setRelayer 4, .setRelayer 5, .setFeeTo (some 3), .setFee (some ⟨2, 7, 6⟩), .setFee (some ⟨2, 0, 6⟩)]).fee = some ⟨2, 7, 6⟩ := by
  decide +kernel

end Verif.Nfi
