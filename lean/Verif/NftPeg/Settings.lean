import Verif.NftPeg.Props3

/-!
# C239: the contract root names for the NFT bridge is the one withdrawals go to
-/

namespace Verif.NftPeg

/-- Root's word. -/
def said (k : Nat) : Op → Nat
  | .setContract a => a
  | _ => k

theorem collFor_contract {c : Cfg} {s s1 : St} {a id : Nat} {dest : Acct} (h : collFor c s a dest = .ok (s1, id)) :
    s1.contract = s.contract := by
  unfold collFor at h
  split at h
  · cases h; rfl
  · simp only [bind_ok, pure_ok] at h
    obtain ⟨_, _, _, _, h⟩ := h
    cases h
    rfl

theorem block_contract (c : Cfg) (s : St) (id : Nat) (dest : Acct) (ns : List Nat) :
    (block c s id dest ns).contract = s.contract := by
  unfold block
  split <;> rfl

theorem depositGroup_contract (c : Cfg) (s : St) (dest : Acct) (g : Nat × List Nat) :
    (depositGroup c s dest g).1.contract = s.contract := by
  unfold depositGroup
  cases h : collFor c s g.1 dest with
  | error e => rfl
  | ok r =>
    obtain ⟨s1, id⟩ := r
    have h1 := collFor_contract h
    dsimp only
    split
    · exact h1
    · exact (block_contract ..).trans h1

theorem doDeposit_contract (c : Cfg) (dest : Acct) : ∀ (gs : List (Nat × List Nat)) (s : St),
    (doDeposit c dest s gs).1.contract = s.contract
  | [], _ => rfl
  | g :: gs, s => by
    have h1 := depositGroup_contract c s dest g
    unfold doDeposit
    split
    · rename_i s1 h
      rw [h] at h1
      exact (doDeposit_contract c dest gs s1).trans h1
    · exact h1

theorem onEvent_contract (c : Cfg) (s : St) (e : Event) : (onEvent c s e).1.contract = s.contract := by
  unfold onEvent
  split
  · rfl
  · rfl
  · split
    · rfl
    · exact doDeposit_contract ..
  · rfl
  · rfl

theorem withdrawColl_contract {s s1 : St} {who : Acct} {b : Option Nat} {id : Nat} {ns : List Nat} {g : Nat × List Nat}
    (h : withdrawColl s who b id ns = .ok (s1, g)) : s1.contract = s.contract := by
  unfold withdrawColl at h
  cases b with
  | none =>
    simp only [bind_ok, ensure_ok, okOr_ok, pure_ok] at h
    obtain ⟨_, _, _, _, ⟨s2, out⟩, h2, _, _, h⟩ := h
    cases h
    cases hb : burnAll who id s.nft ns with
    | error e =>
      rw [hb] at h2
      cases h2
    | ok n =>
      rw [hb] at h2
      cases h2
      rfl
  | some b =>
    simp only [takeBlocked, bind_ok, ensure_ok, okOr_ok, pure_ok] at h
    obtain ⟨_, _, _, _, ⟨s2, out⟩, ⟨_, _, h2⟩, _, _, h⟩ := h
    cases h
    cases h2
    rfl

theorem withdrawLoop_contract {who : Acct} {b : Option Nat} : ∀ {l : List (Nat × List Nat)} {s s1 : St}
    {gs : List (Nat × List Nat)}, withdrawLoop who b s l = .ok (s1, gs) → s1.contract = s.contract
  | [], _, _, _, h => by cases h; rfl
  | (id, ns) :: rest, s, s1, gs, h => by
    simp only [withdrawLoop, bind_ok, pure_ok] at h
    obtain ⟨⟨s2, g⟩, h1, ⟨s3, gs'⟩, h2, h⟩ := h
    cases h
    exact (withdrawLoop_contract h2).trans (withdrawColl_contract h1)

theorem doWithdrawal_contract {s s1 : St} {who : Acct} {colls : List Nat} {serials : List (List Nat)} {dest : Nat}
    {b : Option Nat} {ok : Bool} {m : Msg} (h : doWithdrawal s who colls serials dest b ok = .ok (s1, m)) :
    s1.contract = s.contract ∧ m.contract = s.contract := by
  simp only [doWithdrawal, bind_ok, ensure_ok, pure_ok] at h
  obtain ⟨_, _, ⟨s2, gs⟩, h1, _, _, h⟩ := h
  cases h
  exact ⟨withdrawLoop_contract h1, withdrawLoop_contract h1⟩

theorem step_contract {c : Cfg} {w w1 : World} {op : Op} (h : step c w op = .ok w1) :
    w1.st.contract = said w.st.contract op := by
  cases op with
  | deposit e =>
    cases h
    exact onEvent_contract ..
  | withdraw who colls serials dest ok =>
    simp only [step, bind_ok, pure_ok] at h
    obtain ⟨⟨s1, m⟩, h1, h⟩ := h
    cases h
    simp only [withdraw, bind_ok] at h1
    obtain ⟨_, _, h1⟩ := h1
    exact (doWithdrawal_contract h1).1
  | reclaim who b dest ok =>
    simp only [step, bind_ok, pure_ok] at h
    obtain ⟨⟨s1, m⟩, h1, h⟩ := h
    cases h
    simp only [reclaim, bind_ok] at h1
    obtain ⟨_, _, _, _, h1⟩ := h1
    exact (doWithdrawal_contract h1).1
  | setContract a =>
    cases h
    rfl
  | nft op =>
    simp only [step, bind_ok, pure_ok] at h
    obtain ⟨_, _, h⟩ := h
    cases h
    rfl
  | deliver i =>
    simp only [step, bind_ok, pure_ok] at h
    obtain ⟨_, _, h⟩ := h
    cases h
    rfl

/-- **C239 (NFT bridge).** After any history, failing calls included, the bridge's contract is the one root named
last. -/
theorem C239_nft (c : Cfg) : ∀ (ops : List Op) (w : World),
    (exec c w ops).st.contract = ops.foldl said w.st.contract
  | [], _ => rfl
  | op :: ops, w => by
    unfold exec
    rw [C239_nft c ops, List.foldl_cons]
    cases h : step c w op with
    | ok w1 =>
      rw [← step_contract h]
      rfl
    | error e =>
      cases op with
      | setContract a => cases h
      | _ => rfl

/-- **C239 (NFT bridge).** What is withdrawn or reclaimed after it is asked for from that contract, and the request
joins those before it. -/
theorem C239_nft_withdraw {c : Cfg} {w w1 : World} {ops : List Op} {op : Op} {who : Acct} {colls : List Nat}
    {serials : List (List Nat)} {b dest : Nat} {ok : Bool}
    (ho : op = .withdraw who colls serials dest ok ∨ op = .reclaim who b dest ok)
    (h : step c (exec c w ops) op = .ok w1) :
    ∃ m, w1.pending = (exec c w ops).pending ++ [m] ∧ m.contract = ops.foldl said w.st.contract := by
  rw [← C239_nft c]
  rcases ho with rfl | rfl
  · simp only [step, bind_ok, pure_ok] at h
    obtain ⟨⟨s1, m⟩, h1, h⟩ := h
    cases h
    simp only [withdraw, bind_ok] at h1
    obtain ⟨_, _, h1⟩ := h1
    exact ⟨m, rfl, (doWithdrawal_contract h1).2⟩
  · simp only [step, bind_ok, pure_ok] at h
    obtain ⟨⟨s1, m⟩, h1, h⟩ := h
    cases h
    simp only [reclaim, bind_ok] at h1
    obtain ⟨_, _, _, _, h1⟩ := h1
    exact ⟨m, rfl, (doWithdrawal_contract h1).2⟩

/-- Two contracts are named, with a deposit between. -/
def namedOps : List Op := [.setContract 5, dep [(70, [1, 2])] 7, .setContract 6]

example : namedOps.foldl said g0.st.contract = 6 := by decide +kernel
example : (step cfg0 (exec cfg0 g0 namedOps) (.withdraw 7 [((exec cfg0 g0 namedOps).st.toRoot 70).getD 0] [[1]] 9 true)).isOk = true := by
  decide +kernel

end Verif.NftPeg
