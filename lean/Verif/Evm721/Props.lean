import Verif.Evm721.Lemmas

/-!
# Properties of the ERC-721 contract of a collection

`Std` and `hear` are in `Verif.Evm721.Spec`. `Nft.NoRepeat` and `Nft.Bridged` are the restrictions on histories under which
tokens have one owner (see C22).
-/

namespace Verif.Evm721

open Nft (Cfg St Coll Own Owns Reach Bridged NoRepeat PubMint ownerOf getOwner ownerOf_some getOwner_iff getOwner_none
  getOwner_owns isTokenOwner_iff CI)

/-! ## a demonstration -/

/-- Calls of the contract of collection 100 of `Nft.demo`. -/
def msg (caller : Acct) : Msg := ⟨100, caller, 0, false, true⟩

/-- As `msg`, in a static call. -/
def smsg (caller : Acct) : Msg := ⟨100, caller, 0, true, true⟩

/-- Logs and answer. -/
def said (x : Option Res) : Option (List Log × Out) := x.bind (fun r => r.toOption.map (fun p => p.2))

/-- State after a call. -/
def then_ (s : St) (m : Msg) (k : Call) : St := (next Nft.cfg0 1000 s (.call m k)).1

/-! ## C186 -/

/-- A call that succeeds has passed the checks and run. -/
theorem call_ok {c : Cfg} {lim : Nat} {s : St} {m : Msg} {k : Call} {r : St × List Log × Out}
    (h : call c lim s m k = some (.ok r)) :
    (∃ k0, s.coll m.coll = some k0) ∧ (m.static = false ∨ view k = true) ∧ m.value = 0 ∧ run c lim s m k = .ok r := by
  unfold call at h
  cases hk : s.coll m.coll with
  | none => rw [hk] at h; cases h
  | some k0 =>
    rw [hk] at h
    simp only [Option.some.injEq, bind_ok, ensure_ok] at h
    obtain ⟨_, h1, _, h2, h3⟩ := h
    exact ⟨⟨k0, rfl⟩, h1, h2, h3⟩

theorem min_range {n q : Nat} (h : n + q < U32) : min (n + q) (U32 - 1) - n = q := by
  have : min (n + q) (U32 - 1) = n + q := Nat.min_eq_left (by omega)
  rw [this]; omega

/-- C186: a successful call of the contract of a collection, in any reachable state, answers, changes and logs what the
standard says, and nothing of any other collection changes. Missing: approvals given by an operator, whose log does not name
the owner of the token (see `C188_log_refuted`), and histories with transfers naming a token twice or with native
collections the XRPL bridge mints into (see C22). -/
theorem C186_std_partial {c : Cfg} {lim : Nat} {s s' : St} (hr : Reach c NoRepeat s) {m : Msg} {k : Call} {l : List Log}
    {o : Out} (h : call c lim s m k = some (.ok (s', l, o)))
    (happ : ∀ p n, k = .approve p n → ownerOf s m.coll n = some m.caller)
    (hw : ∀ w, k = .supportsInterface w → w < U256) :
    Std (abs s m.coll) m.caller k (abs s' m.coll) l o ∧ ∀ j, j ≠ m.coll → abs s' j = abs s j := by
  obtain ⟨⟨k0, hk0⟩, _, _, h⟩ := call_ok h
  have hb := hr.bridged
  have hci := hb.bi.coll _ k0 hk0
  have howner : ∀ a n, ownerOf s m.coll n = some a ↔ Owns k0.owned a n := (Nft.C22_one_owner_partial hb hk0).2.1
  have hcount : ∀ a, Count (fun n => (abs s m.coll).owner n = some a) (Nft.balanceOf k0.owned a) := by
    intro a
    obtain ⟨S, hS, hc⟩ := (Nft.C22_balances_partial hr hk0).1 a
    exact ⟨S, fun n => (hS n).trans (howner a n).symm, hc⟩
  cases k with
  | balanceOf a =>
    simp only [run, Except.ok.injEq, Prod.mk.injEq] at h
    obtain ⟨rfl, rfl, rfl⟩ := h
    refine ⟨⟨rfl, rfl, _, rfl, ?_⟩, fun _ _ => rfl⟩
    rw [hk0]
    exact hcount a
  | ownerOf n =>
    simp only [run, serial, bind_ok, ensure_ok, okOr_ok, pure_ok, Prod.mk.injEq] at h
    obtain ⟨_, _, a, ha, rfl, rfl, rfl⟩ := h
    exact ⟨⟨rfl, rfl, a, rfl, ha⟩, fun _ _ => rfl⟩
  | getApproved n =>
    simp only [run, serial, bind_ok, ensure_ok, pure_ok, Prod.mk.injEq] at h
    obtain ⟨_, _, rfl, rfl, rfl⟩ := h
    exact ⟨⟨rfl, rfl, rfl⟩, fun _ _ => rfl⟩
  | isApprovedForAll a p =>
    simp only [run, Except.ok.injEq, Prod.mk.injEq] at h
    obtain ⟨rfl, rfl, rfl⟩ := h
    exact ⟨⟨rfl, rfl, rfl⟩, fun _ _ => rfl⟩
  | totalSupply =>
    simp only [run, bind_ok, okOr_ok, pure_ok, Prod.mk.injEq] at h
    obtain ⟨k1, hk1, rfl, rfl, rfl⟩ := h
    rw [hk0] at hk1; cases hk1
    refine ⟨⟨rfl, rfl, by rw [abs_supply hk0], ?_⟩, fun _ _ => rfl⟩
    rw [abs_supply hk0]
    obtain ⟨S, hS, hc⟩ := (Nft.C22_one_owner_partial hb hk0).2.2
    exact ⟨S, fun n => (hS n).trans ⟨fun ⟨a, ha⟩ => ⟨a, (howner a n).mpr ha⟩, fun ⟨a, ha⟩ => ⟨a, (howner a n).mp ha⟩⟩, hc⟩
  | owner =>
    simp only [run, bind_ok, okOr_ok, pure_ok, Prod.mk.injEq] at h
    obtain ⟨k1, hk1, rfl, rfl, rfl⟩ := h
    exact ⟨⟨rfl, rfl, by rw [abs_boss hk1]⟩, fun _ _ => rfl⟩
  | ownedTokens a limit cursor =>
    simp only [run, bind_ok, ensure_ok, okOr_ok, pure_ok, Prod.mk.injEq] at h
    obtain ⟨_, _, _, _, k1, hk1, rfl, rfl, rfl⟩ := h
    rw [hk0] at hk1; cases hk1
    have hno := hr.ai.owners _ k0 hk0
    refine ⟨⟨rfl, rfl, _, _, _, (Nft.sortedOwned k0.owned a).filter (fun n => decide (cursor ≤ n)), rfl, ?_, ?_, ?_, rfl⟩,
      fun _ _ => rfl⟩
    · have hst := Nft.sortedOwned_strict (hr.ni _ k0 hk0) a
      refine ⟨(Nft.sortedOwned k0.owned a).toFinset, fun n => ?_, ?_⟩
      · rw [List.mem_toFinset, Nft.mem_sortedOwned hno]; exact (howner a n).symm
      · exact List.toFinset_card_of_nodup (hst.imp (fun h => Nat.ne_of_lt h))
    · exact (Nft.sortedOwned_strict (hr.ni _ k0 hk0) a).filter _
    · intro n
      rw [List.mem_filter, Nft.mem_sortedOwned hno, decide_eq_true_eq]
      exact and_congr (howner a n).symm Iff.rfl
  | supportsInterface w =>
    simp only [run, Except.ok.injEq, Prod.mk.injEq] at h
    obtain ⟨rfl, rfl, rfl⟩ := h
    refine ⟨⟨rfl, rfl, ?_⟩, fun _ _ => rfl⟩
    unfold supports interfaces
    rw [top_bytes (hw w rfl)]
    split
    · rename_i he; rw [he]; rfl
    · rfl
  | transferFrom src dst n =>
    simp only [run, serial, Nft.transferFrom, bind_ok, ensure_ok, pure_ok, Prod.mk.injEq] at h
    obtain ⟨_, _, s1, ⟨_, hau, ht⟩, rfl, rfl, rfl⟩ := h
    obtain ⟨h1, h2, h3⟩ := transfer_abs hb ht
    exact ⟨⟨h1, may_of h1 hau, h2, rfl, rfl⟩, h3⟩
  | approve p n =>
    simp only [run, serial, bind_ok, ensure_ok, pure_ok, Prod.mk.injEq] at h
    obtain ⟨_, _, s1, ht, rfl, rfl, rfl⟩ := h
    obtain ⟨_, h2, h3⟩ := approve_abs ht
    exact ⟨⟨m.caller, happ p n rfl, Or.inl rfl, h2, rfl, rfl⟩, h3⟩
  | setApprovalForAll p ok =>
    simp only [run, bind_ok, pure_ok, Prod.mk.injEq] at h
    obtain ⟨s1, ht, rfl, rfl, rfl⟩ := h
    obtain ⟨h2, h3⟩ := operator_abs ht
    exact ⟨⟨h2, rfl, rfl⟩, h3⟩
  | burn n =>
    simp only [run, serial, Nft.burnPrecompile, bind_ok, ensure_ok, okOr_ok, pure_ok, Prod.mk.injEq] at h
    obtain ⟨_, _, s1, ⟨_, hau, a, ha, ht⟩, rfl, rfl, rfl⟩ := h
    obtain ⟨h1, h1', h2, h3⟩ := burn_abs hb ht
    refine ⟨⟨a, h1, may_of h1 hau, h1', h2, ?_, rfl⟩, h3⟩
    rw [ha]; rfl
  | mint dst q =>
    simp only [run, bind_ok, ensure_ok, okOr_ok, pure_ok, Prod.mk.injEq] at h
    obtain ⟨_, _, k1, hk1, s1, ht, rfl, rfl, rfl⟩ := h
    obtain ⟨h1, h2, h3, h4, h5, h6, h7⟩ := mint_abs hb hk1 ht
    refine ⟨⟨by rw [abs_boss hk1]; exact h1, h2, k1.next, h4, h5, h6, ?_, rfl⟩, h7⟩
    rw [min_range h3]
  | setMaxSupply x =>
    simp only [run, bind_ok, ensure_ok, pure_ok, Prod.mk.injEq] at h
    obtain ⟨_, _, s1, ht, rfl, rfl, rfl⟩ := h
    obtain ⟨h1, h2, h3, h4, h5, h6⟩ := cap_abs ht
    exact ⟨⟨h1, h2, h3, h4, h5, rfl, rfl⟩, h6⟩
  | togglePublicMint on =>
    simp only [run, bind_ok, pure_ok, Prod.mk.injEq] at h
    obtain ⟨s1, ht, rfl, rfl, rfl⟩ := h
    obtain ⟨h1, h2, h3⟩ := pub_abs ht
    exact ⟨⟨h1, h2, rfl, rfl⟩, h3⟩
  | setMintFee asset fee =>
    simp only [run, bind_ok, ensure_ok, okOr_ok, pure_ok, Prod.mk.injEq] at h
    obtain ⟨a, ha, _, _, s1, ht, rfl, rfl, rfl⟩ := h
    obtain ⟨h1, h2, h3⟩ := pub_abs ht
    exact ⟨⟨h1, a, ha, h2, rfl, rfl⟩, h3⟩
  | renounceOwnership =>
    simp only [run, bind_ok, pure_ok, Prod.mk.injEq] at h
    obtain ⟨s1, ht, rfl, rfl, rfl⟩ := h
    obtain ⟨h1, h2, h3⟩ := boss_abs ht
    exact ⟨⟨h1, h2, by rw [h1], rfl⟩, h3⟩
  | transferOwnership new =>
    simp only [run, bind_ok, pure_ok, Prod.mk.injEq] at h
    obtain ⟨s1, ht, rfl, rfl, rfl⟩ := h
    obtain ⟨h1, h2, h3⟩ := boss_abs ht
    exact ⟨⟨h1, h2, by rw [h1], rfl⟩, h3⟩
  | enableXls20 =>
    simp only [run, bind_ok, pure_ok, Prod.mk.injEq] at h
    obtain ⟨s1, ht, rfl, rfl, rfl⟩ := h
    obtain ⟨h1, h2, h3, h4⟩ := xls20_abs ht
    exact ⟨⟨h1, h2, h3, rfl, rfl⟩, h4⟩
  | reRequestXls20 ns =>
    simp only [run, bind_ok, ensure_ok, pure_ok, Prod.mk.injEq] at h
    obtain ⟨_, _, _, _, _, _, rfl, rfl, rfl⟩ := h
    exact ⟨⟨rfl, rfl, rfl⟩, fun _ _ => rfl⟩

/-- Non-vacuity: answers and logs in the demonstration. Account 5, approved for token 3 of account 2, moves it; anybody
mints two tokens at a price; account 1 has tokens 2 and 4. -/
example : said (call Nft.cfg0 1000 Nft.demo (msg 5) (.transferFrom 2 8 3)) = some ([.transfer 2 8 3], .unit) ∧
    said (call Nft.cfg0 1000 Nft.demo (msg 7) (.mint 9 2)) = some ([.transfer 0 9 7, .transfer 0 9 8], .unit) ∧
    said (call Nft.cfg0 1000 Nft.demo (msg 5) (.balanceOf 1)) = some ([], .num 2) ∧
    said (call Nft.cfg0 1000 Nft.demo (msg 5) .totalSupply) = some ([], .num 6) ∧
    said (call Nft.cfg0 1000 Nft.demo (msg 5) (.ownedTokens 1 1 0)) = some ([], .page 3 2 [2]) ∧
    said (call Nft.cfg0 1000 Nft.demo (msg 2) (.approve 6 1)) = some ([.approval 2 6 1], .unit) ∧
    said (call Nft.cfg0 1000 Nft.demo (msg 5) (.burn 3)) = some ([.transfer 2 0 3], .unit) ∧
    said (call Nft.cfg0 1000 Nft.demo (msg 1) (.setMintFee (some 3) 0)) = some ([.mintFee 3 0], .unit) ∧
    said (call Nft.cfg0 1000 Nft.demo (msg 1) (.transferOwnership 4)) = some ([.ownership 1 4], .flag true) ∧
    said (call Nft.cfg0 1000 Nft.demo (msg 2) (.transferOwnership 4)) = none := by decide +kernel

/-- The token a call is about. -/
def about : Call → Option Nat
  | .ownerOf n => some n
  | .getApproved n => some n
  | .transferFrom _ _ n => some n
  | .approve _ n => some n
  | .burn n => some n
  | _ => none

/-- C186: token ids beyond 32 bits are never taken for others: calls about them fail. -/
theorem C186_ids {c : Cfg} {lim : Nat} {s : St} {m : Msg} {k : Call} {n : Nat} (hn : about k = some n) (hb : 2 ^ 32 ≤ n)
    {r : St × List Log × Out} : call c lim s m k ≠ some (.ok r) := by
  intro h
  obtain ⟨_, _, _, h⟩ := call_ok h
  have hlt : n < U32 := by
    cases k with
    | ownerOf x => cases hn; simp only [run, serial, bind_ok, ensure_ok] at h; exact h.choose_spec.1
    | getApproved x => cases hn; simp only [run, serial, bind_ok, ensure_ok] at h; exact h.choose_spec.1
    | transferFrom a b x => cases hn; simp only [run, serial, bind_ok, ensure_ok] at h; exact h.choose_spec.1
    | approve a x => cases hn; simp only [run, serial, bind_ok, ensure_ok] at h; exact h.choose_spec.1
    | burn x => cases hn; simp only [run, serial, bind_ok, ensure_ok] at h; exact h.choose_spec.1
    | _ => cases hn
  unfold U32 at hlt
  omega

/-- Non-vacuity: token 3 and an id with the same lowest 32 bits. -/
example : said (call Nft.cfg0 1000 Nft.demo (msg 5) (.ownerOf 3)) = some ([], .addr 2) ∧
    said (call Nft.cfg0 1000 Nft.demo (msg 5) (.ownerOf (2 ^ 32 + 3))) = none := by decide +kernel

/-! ## C187 -/

theorem hearAll_append (t : Tok) (id : Nat) (a b : List (Nat × Log)) :
    hearAll t id (a ++ b) = hearAll (hearAll t id a) id b := by
  unfold hearAll
  rw [List.filter_append, List.map_append, List.foldl_append]

theorem hearAll_self (t : Tok) (id : Nat) (l : List Log) : hearAll t id (l.map (fun x => (id, x))) = l.foldl hear t := by
  unfold hearAll
  rw [List.filter_eq_self.mpr (by
    intro p hp
    obtain ⟨x, _, rfl⟩ := List.mem_map.mp hp
    simp), List.map_map]
  congr 1
  exact List.map_id l

theorem hearAll_other (t : Tok) {j id : Nat} (hj : j ≠ id) (l : List Log) : hearAll t j (l.map (fun x => (id, x))) = t := by
  unfold hearAll
  rw [List.filter_eq_nil_iff.mpr (by
    intro p hp
    obtain ⟨x, _, rfl⟩ := List.mem_map.mp hp
    simpa using fun h => hj h.symm)]
  rfl

/-- The zero address has no token. -/
def NoZero (t : Tok) : Prop := ∀ n, t.owner n ≠ some 0

theorem NoZero.hear {t : Tok} (h : NoZero t) (x : Log) : NoZero (hear t x) := by
  intro n
  cases x with
  | transfer src dst m =>
    show put t.owner m (if dst = 0 then none else some dst) n ≠ some 0
    unfold put
    split
    · split
      · simp
      · rename_i hd; simp only [ne_eq, Option.some.injEq]; exact hd
    · exact h n
  | _ => exact h n

theorem NoZero.all {t : Tok} (h : NoZero t) (l : List Log) : NoZero (l.foldl Evm721.hear t) := by
  induction l generalizing t with
  | nil => exact h
  | cons x l ih => exact ih (h.hear x)

/-- Hearing of the transfers of a mint. -/
theorem hear_mint {dst : Acct} (hd : dst ≠ 0) : ∀ (q first : Nat) (t : Tok),
    ((List.range' first q).map (fun n => Log.transfer 0 dst n)).foldl hear t = { t with
      owner := fun n => if first ≤ n ∧ n < first + q then some dst else t.owner n
      approved := fun n => if first ≤ n ∧ n < first + q then 0 else t.approved n
      supply := t.supply + q }
  | 0, first, t => by
    refine Tok.ext' (fun n => ?_) (fun n => ?_) (fun _ _ => rfl) rfl rfl rfl rfl rfl
    · show t.owner n = if first ≤ n ∧ n < first + 0 then some dst else t.owner n
      rw [if_neg (by omega)]
    · show t.approved n = if first ≤ n ∧ n < first + 0 then 0 else t.approved n
      rw [if_neg (by omega)]
  | q + 1, first, t => by
    rw [List.range'_succ, List.map_cons, List.foldl_cons, hear_mint hd q (first + 1)]
    refine Tok.ext' (fun n => ?_) (fun n => ?_) (fun _ _ => rfl) rfl ?_ rfl rfl rfl
    · show (if first + 1 ≤ n ∧ n < first + 1 + q then some dst else put t.owner first (if dst = 0 then none else some dst) n) =
        if first ≤ n ∧ n < first + (q + 1) then some dst else t.owner n
      unfold put
      rw [if_neg hd]
      by_cases h1 : n = first
      · subst h1
        rw [if_neg (by omega), if_pos rfl, if_pos (by omega)]
      · rw [if_neg h1]
        by_cases h2 : first + 1 ≤ n ∧ n < first + 1 + q
        · rw [if_pos h2, if_pos (by omega)]
        · rw [if_neg h2, if_neg (by omega)]
    · show (if first + 1 ≤ n ∧ n < first + 1 + q then 0 else put t.approved first 0 n) =
        if first ≤ n ∧ n < first + (q + 1) then 0 else t.approved n
      unfold put
      by_cases h1 : n = first
      · subst h1
        rw [if_neg (by omega), if_pos rfl, if_pos (by omega)]
      · rw [if_neg h1]
        by_cases h2 : first + 1 ≤ n ∧ n < first + 1 + q
        · rw [if_pos h2, if_pos (by omega)]
        · rw [if_neg h2, if_neg (by omega)]
    · show t.supply + (if (0 : Nat) = 0 then 1 else 0) - (if dst = 0 then 1 else 0) + q = t.supply + (q + 1)
      rw [if_pos rfl, if_neg hd]
      omega

/-- Hearing of a transfer of a token of somebody to somebody. -/
theorem hear_transfer (t : Tok) {src dst : Acct} (hs : src ≠ 0) (hd : dst ≠ 0) (n : Nat) :
    hear t (.transfer src dst n) = { t with
      owner := put t.owner n (some dst)
      approved := put t.approved n 0 } := by
  refine Tok.ext' (fun m => ?_) (fun _ => rfl) (fun _ _ => rfl) rfl ?_ rfl rfl rfl
  · show put t.owner n (if dst = 0 then none else some dst) m = _
    rw [if_neg hd]
  · show t.supply + (if src = 0 then 1 else 0) - (if dst = 0 then 1 else 0) = t.supply
    rw [if_neg hs, if_neg hd]; omega

/-- Nobody sends tokens to the zero address. -/
def Proper : Ev → Prop
  | .call _ (.transferFrom _ dst _) => dst ≠ 0
  | .call _ (.mint dst _) => dst ≠ 0
  | .deliver _ _ _ dst => dst ≠ 0
  | .other _ => False
  | _ => True

/-- What a call changes is what its logs say. -/
theorem run_heard {c : Cfg} {lim : Nat} {s s' : St} (hb : Reach c Bridged s) {m : Msg} {k : Call} {l : List Log} {o : Out}
    (hp : Proper (.call m k)) (hz : NoZero (abs s m.coll)) (h : run c lim s m k = .ok (s', l, o)) :
    abs s' m.coll = l.foldl hear (abs s m.coll) ∧ ∀ j, j ≠ m.coll → abs s' j = abs s j := by
  cases k with
  | balanceOf a =>
    simp only [run, Except.ok.injEq, Prod.mk.injEq] at h
    obtain ⟨rfl, rfl, rfl⟩ := h
    exact ⟨rfl, fun _ _ => rfl⟩
  | ownerOf n =>
    simp only [run, serial, bind_ok, ensure_ok, okOr_ok, pure_ok, Prod.mk.injEq] at h
    obtain ⟨_, _, a, ha, rfl, rfl, rfl⟩ := h
    exact ⟨rfl, fun _ _ => rfl⟩
  | getApproved n =>
    simp only [run, serial, bind_ok, ensure_ok, pure_ok, Prod.mk.injEq] at h
    obtain ⟨_, _, rfl, rfl, rfl⟩ := h
    exact ⟨rfl, fun _ _ => rfl⟩
  | isApprovedForAll a p =>
    simp only [run, Except.ok.injEq, Prod.mk.injEq] at h
    obtain ⟨rfl, rfl, rfl⟩ := h
    exact ⟨rfl, fun _ _ => rfl⟩
  | totalSupply =>
    simp only [run, bind_ok, okOr_ok, pure_ok, Prod.mk.injEq] at h
    obtain ⟨k1, hk1, rfl, rfl, rfl⟩ := h
    exact ⟨rfl, fun _ _ => rfl⟩
  | owner =>
    simp only [run, bind_ok, okOr_ok, pure_ok, Prod.mk.injEq] at h
    obtain ⟨k1, hk1, rfl, rfl, rfl⟩ := h
    exact ⟨rfl, fun _ _ => rfl⟩
  | ownedTokens a limit cursor =>
    simp only [run, bind_ok, ensure_ok, okOr_ok, pure_ok, Prod.mk.injEq] at h
    obtain ⟨_, _, _, _, k1, hk1, rfl, rfl, rfl⟩ := h
    exact ⟨rfl, fun _ _ => rfl⟩
  | supportsInterface w =>
    simp only [run, Except.ok.injEq, Prod.mk.injEq] at h
    obtain ⟨rfl, rfl, rfl⟩ := h
    exact ⟨rfl, fun _ _ => rfl⟩
  | transferFrom src dst n =>
    simp only [run, serial, Nft.transferFrom, bind_ok, ensure_ok, pure_ok, Prod.mk.injEq] at h
    obtain ⟨_, _, s1, ⟨_, hau, ht⟩, rfl, rfl, rfl⟩ := h
    obtain ⟨h1, h2, h3⟩ := transfer_abs hb ht
    have hs : src ≠ 0 := by rintro rfl; exact hz n h1
    refine ⟨?_, h3⟩
    rw [List.foldl_cons, List.foldl_nil, hear_transfer _ hs hp]
    exact h2
  | approve p n =>
    simp only [run, serial, bind_ok, ensure_ok, pure_ok, Prod.mk.injEq] at h
    obtain ⟨_, _, s1, ht, rfl, rfl, rfl⟩ := h
    obtain ⟨_, h2, h3⟩ := approve_abs ht
    exact ⟨h2, h3⟩
  | setApprovalForAll p ok =>
    simp only [run, bind_ok, pure_ok, Prod.mk.injEq] at h
    obtain ⟨s1, ht, rfl, rfl, rfl⟩ := h
    obtain ⟨h2, h3⟩ := operator_abs ht
    exact ⟨h2, h3⟩
  | burn n =>
    simp only [run, serial, Nft.burnPrecompile, bind_ok, ensure_ok, okOr_ok, pure_ok, Prod.mk.injEq] at h
    obtain ⟨_, _, s1, ⟨_, hau, a, ha, ht⟩, rfl, rfl, rfl⟩ := h
    obtain ⟨h1, h1', h2, h3⟩ := burn_abs hb ht
    have hs : a ≠ 0 := by rintro rfl; exact hz n h1
    refine ⟨?_, h3⟩
    rw [ha, List.foldl_cons, List.foldl_nil, h2]
    refine Tok.ext' (fun m => ?_) (fun _ => rfl) (fun _ _ => rfl) rfl ?_ rfl rfl rfl
    · rfl
    · show _ - 1 = _ + (if a = 0 then 1 else 0) - (if (0 : Nat) = 0 then 1 else 0)
      rw [if_neg hs, if_pos rfl]
      rfl
  | mint dst q =>
    simp only [run, bind_ok, ensure_ok, okOr_ok, pure_ok, Prod.mk.injEq] at h
    obtain ⟨_, _, k1, hk1, s1, ht, rfl, rfl, rfl⟩ := h
    obtain ⟨h1, h2, h3, h4, h5, h6, h7⟩ := mint_abs hb hk1 ht
    refine ⟨?_, h7⟩
    rw [min_range h3, hear_mint hp, h6]
    refine Tok.ext' (fun _ => rfl) (fun n => ?_) (fun _ _ => rfl) rfl rfl rfl rfl rfl
    show (s.approvals m.coll n).getD 0 = if k1.next ≤ n ∧ n < k1.next + q then 0 else (s.approvals m.coll n).getD 0
    split
    · rename_i hn
      cases ha : s.approvals m.coll n with
      | none => rfl
      | some x =>
        obtain ⟨b, hb'⟩ := hb.bi.appr _ _ _ ha
        rw [h4 n hn.1 hn.2] at hb'
        cases hb'
    · rfl
  | setMaxSupply x =>
    simp only [run, bind_ok, ensure_ok, pure_ok, Prod.mk.injEq] at h
    obtain ⟨_, _, s1, ht, rfl, rfl, rfl⟩ := h
    obtain ⟨h1, h2, h3, h4, h5, h6⟩ := cap_abs ht
    exact ⟨h5, h6⟩
  | togglePublicMint on =>
    simp only [run, bind_ok, pure_ok, Prod.mk.injEq] at h
    obtain ⟨s1, ht, rfl, rfl, rfl⟩ := h
    obtain ⟨h1, h2, h3⟩ := pub_abs ht
    exact ⟨h2, h3⟩
  | setMintFee asset fee =>
    simp only [run, bind_ok, ensure_ok, okOr_ok, pure_ok, Prod.mk.injEq] at h
    obtain ⟨a, ha, _, _, s1, ht, rfl, rfl, rfl⟩ := h
    obtain ⟨h1, h2, h3⟩ := pub_abs ht
    exact ⟨h2, h3⟩
  | renounceOwnership =>
    simp only [run, bind_ok, pure_ok, Prod.mk.injEq] at h
    obtain ⟨s1, ht, rfl, rfl, rfl⟩ := h
    obtain ⟨h1, h2, h3⟩ := boss_abs ht
    exact ⟨h2, h3⟩
  | transferOwnership new =>
    simp only [run, bind_ok, pure_ok, Prod.mk.injEq] at h
    obtain ⟨s1, ht, rfl, rfl, rfl⟩ := h
    obtain ⟨h1, h2, h3⟩ := boss_abs ht
    exact ⟨h2, h3⟩
  | enableXls20 =>
    simp only [run, bind_ok, pure_ok, Prod.mk.injEq] at h
    obtain ⟨s1, ht, rfl, rfl, rfl⟩ := h
    obtain ⟨h1, h2, h3, h4⟩ := xls20_abs ht
    exact ⟨h3, h4⟩
  | reRequestXls20 ns =>
    simp only [run, bind_ok, ensure_ok, pure_ok, Prod.mk.injEq] at h
    obtain ⟨_, _, _, _, _, _, rfl, rfl, rfl⟩ := h
    refine ⟨?_, fun _ _ => rfl⟩
    have go : ∀ (ns : List Nat) (t : Tok), t = (ns.map Log.xls20Requested).foldl hear t := by
      intro ns
      induction ns with
      | nil => intro t; rfl
      | cons n ns ih => intro t; rw [List.map_cons, List.foldl_cons]; exact ih t
    exact go ns _

/-- A call is one or no operation of the pallet. -/
theorem run_reach {c : Cfg} {G : St → Nft.Op → Prop} (hG : ∀ s op, (∀ i w ns, op ≠ .bridgedMint i w ns) →
    (∀ w i ns x, op ≠ .transfer w i ns x) → G s op) {lim : Nat} {s s' : St} (hb : Reach c G s) {m : Msg} {k : Call}
    {l : List Log} {o : Out} (h : run c lim s m k = .ok (s', l, o)) : Reach c G s' := by
  have go : ∀ op, Nft.step c s op = .ok s' → (∀ i w ns, op ≠ .bridgedMint i w ns) →
      (∀ w i ns x, op ≠ .transfer w i ns x) → Reach c G s' := fun op h1 h2 h3 => hb.step (hG s op h2 h3) h1
  cases k with
  | balanceOf a =>
    simp only [run, Except.ok.injEq, Prod.mk.injEq] at h
    obtain ⟨rfl, rfl, rfl⟩ := h
    exact hb
  | ownerOf n =>
    simp only [run, serial, bind_ok, ensure_ok, okOr_ok, pure_ok, Prod.mk.injEq] at h
    obtain ⟨_, _, a, ha, rfl, rfl, rfl⟩ := h
    exact hb
  | getApproved n =>
    simp only [run, serial, bind_ok, ensure_ok, pure_ok, Prod.mk.injEq] at h
    obtain ⟨_, _, rfl, rfl, rfl⟩ := h
    exact hb
  | isApprovedForAll a p =>
    simp only [run, Except.ok.injEq, Prod.mk.injEq] at h
    obtain ⟨rfl, rfl, rfl⟩ := h
    exact hb
  | totalSupply =>
    simp only [run, bind_ok, okOr_ok, pure_ok, Prod.mk.injEq] at h
    obtain ⟨k1, hk1, rfl, rfl, rfl⟩ := h
    exact hb
  | owner =>
    simp only [run, bind_ok, okOr_ok, pure_ok, Prod.mk.injEq] at h
    obtain ⟨k1, hk1, rfl, rfl, rfl⟩ := h
    exact hb
  | ownedTokens a limit cursor =>
    simp only [run, bind_ok, ensure_ok, okOr_ok, pure_ok, Prod.mk.injEq] at h
    obtain ⟨_, _, _, _, k1, hk1, rfl, rfl, rfl⟩ := h
    exact hb
  | supportsInterface w =>
    simp only [run, Except.ok.injEq, Prod.mk.injEq] at h
    obtain ⟨rfl, rfl, rfl⟩ := h
    exact hb
  | transferFrom src dst n =>
    simp only [run, serial, bind_ok, ensure_ok, pure_ok, Prod.mk.injEq] at h
    obtain ⟨_, _, s1, ht, rfl, rfl, rfl⟩ := h
    exact go (.transferFrom m.caller m.coll n src dst) ht (by intros; simp) (by intros; simp)
  | approve p n =>
    simp only [run, serial, bind_ok, ensure_ok, pure_ok, Prod.mk.injEq] at h
    obtain ⟨_, _, s1, ht, rfl, rfl, rfl⟩ := h
    exact go (.approve m.caller p m.coll n) ht (by intros; simp) (by intros; simp)
  | setApprovalForAll p ok =>
    simp only [run, bind_ok, pure_ok, Prod.mk.injEq] at h
    obtain ⟨s1, ht, rfl, rfl, rfl⟩ := h
    exact go (.approveAll m.caller p m.coll ok) ht (by intros; simp) (by intros; simp)
  | burn n =>
    simp only [run, serial, bind_ok, ensure_ok, pure_ok, Prod.mk.injEq] at h
    obtain ⟨_, _, s1, ht, rfl, rfl, rfl⟩ := h
    exact go (.burnPrecompile m.caller m.coll n) ht (by intros; simp) (by intros; simp)
  | mint dst q =>
    simp only [run, bind_ok, ensure_ok, okOr_ok, pure_ok, Prod.mk.injEq] at h
    obtain ⟨_, _, k1, hk1, s1, ht, rfl, rfl, rfl⟩ := h
    exact go (.mint m.caller m.coll q (some dst) m.others) ht (by intros; simp) (by intros; simp)
  | setMaxSupply x =>
    simp only [run, bind_ok, ensure_ok, pure_ok, Prod.mk.injEq] at h
    obtain ⟨_, _, s1, ht, rfl, rfl, rfl⟩ := h
    exact go (.setMaxIssuance m.caller m.coll x) ht (by intros; simp) (by intros; simp)
  | togglePublicMint on =>
    simp only [run, bind_ok, pure_ok, Prod.mk.injEq] at h
    obtain ⟨s1, ht, rfl, rfl, rfl⟩ := h
    exact go (.setPubMint m.caller m.coll _) ht (by intros; simp) (by intros; simp)
  | setMintFee asset fee =>
    simp only [run, bind_ok, ensure_ok, okOr_ok, pure_ok, Prod.mk.injEq] at h
    obtain ⟨a, ha, _, _, s1, ht, rfl, rfl, rfl⟩ := h
    exact go (.setPubMint m.caller m.coll _) ht (by intros; simp) (by intros; simp)
  | renounceOwnership =>
    simp only [run, bind_ok, pure_ok, Prod.mk.injEq] at h
    obtain ⟨s1, ht, rfl, rfl, rfl⟩ := h
    exact go (.setOwner m.caller m.coll 0) ht (by intros; simp) (by intros; simp)
  | transferOwnership new =>
    simp only [run, bind_ok, pure_ok, Prod.mk.injEq] at h
    obtain ⟨s1, ht, rfl, rfl, rfl⟩ := h
    exact go (.setOwner m.caller m.coll new) ht (by intros; simp) (by intros; simp)
  | enableXls20 =>
    simp only [run, bind_ok, pure_ok, Prod.mk.injEq] at h
    obtain ⟨s1, ht, rfl, rfl, rfl⟩ := h
    exact go (.enableXls20 m.caller m.coll) ht (by intros; simp) (by intros; simp)
  | reRequestXls20 ns =>
    simp only [run, bind_ok, ensure_ok, pure_ok, Prod.mk.injEq] at h
    obtain ⟨_, _, _, _, _, _, rfl, rfl, rfl⟩ := h
    exact hb

theorem bridged_free {s : St} {op : Nft.Op} (h : ∀ i w ns, op ≠ .bridgedMint i w ns) : Bridged s op := by
  cases op <;> first
    | exact absurd rfl (h _ _ _)
    | exact trivial

/-- One event. -/
theorem next_heard {c : Cfg} {lim : Nat} {s : St} (hb : Reach c Bridged s) {e : Ev} (hp : Proper e) (id : Nat)
    (hz : ∀ j, NoZero (abs s j)) :
    Reach c Bridged (next c lim s e).1 ∧ abs (next c lim s e).1 id = hearAll (abs s id) id (next c lim s e).2 ∧
    ∀ j, NoZero (abs (next c lim s e).1 j) := by
  have close : ∀ (s1 : St) (coll : Nat) (l : List Log), Reach c Bridged s1 →
      abs s1 coll = l.foldl hear (abs s coll) → (∀ j, j ≠ coll → abs s1 j = abs s j) →
      Reach c Bridged s1 ∧ abs s1 id = hearAll (abs s id) id (l.map (fun x => (coll, x))) ∧ ∀ j, NoZero (abs s1 j) := by
    intro s1 coll l h0 h1 h2
    refine ⟨h0, ?_, fun j => ?_⟩
    · by_cases hj : id = coll
      · subst hj; rw [hearAll_self]; exact h1
      · rw [hearAll_other _ hj]; exact h2 id hj
    · by_cases hj : j = coll
      · subst hj; rw [h1]; exact (hz j).all l
      · rw [h2 j hj]; exact hz j
  cases e with
  | call m k =>
    cases hc : call c lim s m k with
    | none =>
      have e : next c lim s (.call m k) = (s, []) := by simp only [next, hc]
      rw [e]; exact ⟨hb, rfl, hz⟩
    | some r =>
      cases r with
      | error e =>
        have e : next c lim s (.call m k) = (s, []) := by simp only [next, hc]
        rw [e]; exact ⟨hb, rfl, hz⟩
      | ok x =>
        obtain ⟨s1, l, o⟩ := x
        have e : next c lim s (.call m k) = (s1, l.map (fun x => (m.coll, x))) := by simp only [next, hc]
        rw [e]
        obtain ⟨_, _, _, h⟩ := call_ok hc
        obtain ⟨h1, h2⟩ := run_heard hb hp (hz _) h
        exact close s1 m.coll l (run_reach (fun s op h _ => bridged_free h) hb h) h1 h2
  | deliver i n src dst =>
    cases ht : Nft.doTransfer c s i [n] src dst with
    | error e =>
      have e : next c lim s (.deliver i n src dst) = (s, []) := by simp only [next, ht]
      rw [e]; exact ⟨hb, rfl, hz⟩
    | ok s1 =>
      have e : next c lim s (.deliver i n src dst) = (s1, [(i, .transfer src dst n)]) := by simp only [next, ht]
      rw [e]
      obtain ⟨h1, h2, h3⟩ := transfer_abs hb ht
      have hs : src ≠ 0 := by rintro rfl; exact hz i n h1
      refine close s1 i [.transfer src dst n] (hb.step (op := .transfer src i [n] dst) trivial ht) ?_ h3
      rw [List.foldl_cons, List.foldl_nil, hear_transfer _ hs hp]
      exact h2
  | other op => exact hp.elim

/-- C187: whoever knows the contract of a collection and hears its logs knows it ever after: owners, approvals, operators,
supply, owner of the contract and rules of minting are what the logs say. Missing: tokens sent to the zero address, and
changes that are not made through contracts (`Proper`); they leave logs that are not true or none. -/
theorem C187_logs_partial {c : Cfg} {lim : Nat} : ∀ (es : List Ev) {s : St}, Reach c Bridged s →
    (∀ j n, ownerOf s j n ≠ some 0) → (∀ e ∈ es, Proper e) → ∀ id,
    abs (runs c lim s es).1 id = hearAll (abs s id) id (runs c lim s es).2
  | [], _, _, _, _, _ => rfl
  | e :: es, s, hb, hz, hp, id => by
    obtain ⟨h1, h2, h3⟩ := next_heard (lim := lim) hb (hp e List.mem_cons_self) id hz
    show abs (runs c lim (next c lim s e).1 es).1 id =
      hearAll (abs s id) id ((next c lim s e).2 ++ (runs c lim (next c lim s e).1 es).2)
    rw [hearAll_append, ← h2]
    exact C187_logs_partial es h1 h3 (fun e he => hp e (List.mem_cons_of_mem _ he)) id

/-- Calls in the demonstration: a mint, a transfer by the approved account, an approval, a burn, a new owner. -/
def demoEvs : List Ev :=
  [.call (msg 7) (.mint 9 2), .call (msg 5) (.transferFrom 2 8 3), .call (msg 9) (.approve 6 8), .deliver 100 7 9 11,
   .call (msg 6) (.burn 8), .call (msg 1) (.transferOwnership 4), .call (msg 1) (.togglePublicMint false),
   .call (msg 4) (.togglePublicMint false)]

/-- Non-vacuity: the logs of the demonstration. -/
example : (∀ e ∈ demoEvs, Proper e) ∧ (runs Nft.cfg0 1000 Nft.demo demoEvs).2 =
    [(100, .transfer 0 9 7), (100, .transfer 0 9 8), (100, .transfer 2 8 3), (100, .approval 9 6 8),
     (100, .transfer 9 11 7), (100, .transfer 9 0 8), (100, .ownership 1 4), (100, .publicMint false)] ∧
    ownerOf (runs Nft.cfg0 1000 Nft.demo demoEvs).1 100 7 = some 11 := by
  refine ⟨?_, by decide +kernel, by decide +kernel⟩
  intro e he
  simp only [demoEvs, List.mem_cons, List.not_mem_nil, or_false] at he
  rcases he with rfl | rfl | rfl | rfl | rfl | rfl | rfl | rfl <;> simp [Proper]

/-- C187 fails: a token sent to the zero address is, from the logs, destroyed, but the contract says the zero address owns
it and counts it. -/
theorem C187_zero_refuted : ∃ s e, Reach Nft.cfg0 NoRepeat s ∧ (∀ n, ownerOf s 100 n ≠ some 0) ∧
    (next Nft.cfg0 1000 s e).2 = [(100, .transfer 2 0 3)] ∧
    (abs (next Nft.cfg0 1000 s e).1 100).owner 3 = some 0 ∧
    (hearAll (abs s 100) 100 (next Nft.cfg0 1000 s e).2).owner 3 = none ∧
    (abs (next Nft.cfg0 1000 s e).1 100).supply = 6 ∧
    (hearAll (abs s 100) 100 (next Nft.cfg0 1000 s e).2).supply = 5 := by
  refine ⟨Nft.demo, .call (msg 5) (.transferFrom 2 0 3), Nft.demo_reach, ?_, by decide +kernel, by decide +kernel,
    by decide +kernel, by decide +kernel, by decide +kernel⟩
  intro n h
  obtain ⟨k, hk⟩ : ∃ k, Nft.demo.coll 100 = some k := Option.isSome_iff_exists.mp (by decide +kernel)
  have hkv : (Nft.demo.coll 100).map (fun k => k.owned) = some [⟨1, [2, 4]⟩, ⟨2, [1, 3]⟩, ⟨7, [5, 6]⟩] := by decide +kernel
  rw [hk, Option.map_some, Option.some.injEq] at hkv
  rw [ownerOf_some hk] at h
  obtain ⟨e, he, ha, _⟩ := getOwner_owns h
  rw [hkv] at he
  simp only [List.mem_cons, List.not_mem_nil, or_false] at he
  rcases he with rfl | rfl | rfl <;> cases ha

/-- C187 fails: a token moved by an extrinsic leaves no log of the contract. -/
theorem C187_extrinsic_refuted : ∃ s e, Reach Nft.cfg0 NoRepeat s ∧ (next Nft.cfg0 1000 s e).2 = [] ∧
    (abs s 100).owner 4 = some 1 ∧ (abs (next Nft.cfg0 1000 s e).1 100).owner 4 = some 3 :=
  ⟨Nft.demo, .other (.transfer 1 100 [4] 3), Nft.demo_reach, by decide +kernel, by decide +kernel, by decide +kernel⟩

/-! ## C188 -/

/-- There is room for one more token. -/
theorem addUser_room {max : Nat} {o : List Own} {who : Acct} {n : Nat} (h1 : o.length < max)
    (h2 : ∀ e ∈ o, e.serials.length < max) : ∃ o', Nft.addUser max o who [n] = .ok o' := by
  have go : ∀ o : List Own, (∀ e ∈ o, e.serials.length < max) → ∃ o', Nft.addEntries max who [n] o = .ok o' := by
    intro o
    induction o with
    | nil => intro _; exact ⟨[], rfl⟩
    | cons e o ih =>
      intro h
      obtain ⟨o', ho'⟩ := ih (fun x hx => h x (List.mem_cons_of_mem _ hx))
      unfold Nft.addEntries
      split
      · refine ⟨⟨e.owner, Nft.sortN (e.serials ++ [n])⟩ :: o', ?_⟩
        simp only [bind_ok, pure_ok]
        refine ⟨_, ?_, o', ho', rfl⟩
        simp only [Nft.addAll, bind_ok, ensure_ok]
        exact ⟨(), h e List.mem_cons_self, trivial⟩
      · refine ⟨e :: o', ?_⟩
        simp only [bind_ok, pure_ok]
        exact ⟨o', ho', rfl⟩
  unfold Nft.addUser
  split
  · exact go o h2
  · refine ⟨o ++ [⟨who, Nft.sortN [n]⟩], ?_⟩
    simp only [bind_ok, ensure_ok, pure_ok]
    exact ⟨(), h1, trivial⟩

theorem retainFirst_small {who : Acct} {ns : List Nat} {max : Nat} : ∀ {o : List Own}, (∀ e ∈ o, e.serials.length < max) →
    (Nft.retainFirst who ns o).1.length = o.length ∧ ∀ e ∈ (Nft.retainFirst who ns o).1, e.serials.length < max
  | [], _ => ⟨rfl, fun _ h => nomatch h⟩
  | e :: o, h => by
    obtain ⟨h1, h2⟩ := retainFirst_small (who := who) (ns := ns) (o := o) (fun x hx => h x (List.mem_cons_of_mem _ hx))
    unfold Nft.retainFirst
    split
    · refine ⟨rfl, ?_⟩
      intro x hx
      rcases List.mem_cons.mp hx with rfl | hx
      · exact lt_of_le_of_lt (List.length_filter_le _ _) (h e List.mem_cons_self)
      · exact h x (List.mem_cons_of_mem _ hx)
    · refine ⟨by simp [h1], ?_⟩
      intro x hx
      rcases List.mem_cons.mp hx with rfl | hx
      · exact h x List.mem_cons_self
      · exact h2 x hx

theorem removeUser_small {who : Acct} {ns : List Nat} {max : Nat} {o : List Own} (h : ∀ e ∈ o, e.serials.length < max) :
    (Nft.removeUser o who ns).length ≤ o.length ∧ ∀ e ∈ Nft.removeUser o who ns, e.serials.length < max := by
  obtain ⟨h1, h2⟩ := retainFirst_small (who := who) (ns := ns) h
  unfold Nft.removeUser
  split
  · exact ⟨(List.length_filter_le _ _).trans h1.le, fun e he => h2 e (List.mem_filter.mp he).1⟩
  · exact ⟨h1.le, h2⟩

/-- Somebody who may move a token is let. -/
theorem of_may {s : St} {id n : Nat} {caller a : Acct} (ho : ownerOf s id n = some a) (hc : caller ≠ 0)
    (h : May (abs s id) caller a n) : Nft.isApprovedOrOwner s id n caller = true := by
  unfold Nft.isApprovedOrOwner
  rw [ho]
  simp only [Option.some.injEq, Bool.or_eq_true, decide_eq_true_eq]
  rcases h with h | h | h
  · exact Or.inl (Or.inl h.symm)
  · exact Or.inl (Or.inr h)
  · refine Or.inr ?_
    change (s.approvals id n).getD 0 = caller at h
    cases hx : s.approvals id n with
    | none => rw [hx] at h; exact absurd h.symm hc
    | some x => rw [hx] at h; rw [← h]; rfl

/-- C188: an account that may move a token moves it to any other account: of an unlocked token, if the collection lets
tokens be transferred and is not full. -/
theorem C188_transfer {c : Cfg} (lim : Nat) {s : St} (hb : Reach c Bridged s) {m : Msg} {k : Coll} {src dst : Acct}
    {n : Nat} (hk : s.coll m.coll = some k) (hst : m.static = false) (hv : m.value = 0) (hc : m.caller ≠ 0)
    (ho : ownerOf s m.coll n = some src) (hm : May (abs s m.coll) m.caller src n) (hne : src ≠ dst) (hn : n < 2 ^ 32)
    (hl : s.locks m.coll n = none) (hf : (s.flags m.coll).transferable = true) (h1 : k.owned.length < c.maxTokens)
    (h2 : ∀ e ∈ k.owned, e.serials.length < c.maxTokens) :
    ∃ s', call c lim s m (.transferFrom src dst n) = some (.ok (s', [.transfer src dst n], .unit)) ∧
      ownerOf s' m.coll n = some dst := by
  obtain ⟨hr1, hr2⟩ := removeUser_small (who := src) (ns := [n]) h2
  obtain ⟨o, hadd⟩ := addUser_room (who := dst) (n := n) (lt_of_le_of_lt hr1 h1) hr2
  have hown : Owns k.owned src n := by rw [ownerOf_some hk] at ho; exact getOwner_owns ho
  have hs : ∃ s', Nft.doTransfer c s m.coll [n] src dst = .ok s' := by
    simp only [Nft.doTransfer, bind_ok, ensure_ok, okOr_ok, pure_ok]
    refine ⟨_, (), ?_, (), hne, (), hf, k, hk, (), ?_, o, hadd, rfl⟩
    · show 1 ≤ c.maxTokens; omega
    · intro x hx
      rw [List.mem_singleton] at hx
      subst hx
      exact ⟨isTokenOwner_iff.mpr hown, hl⟩
  obtain ⟨s', hs⟩ := hs
  refine ⟨s', ?_, ?_⟩
  · unfold call
    rw [hk]
    simp only [Option.some.injEq, bind_ok, ensure_ok]
    refine ⟨(), Or.inl hst, (), hv, ?_⟩
    simp only [run, serial, Nft.transferFrom, bind_ok, ensure_ok, pure_ok]
    refine ⟨(), ?_, s', ⟨(), of_may ho hc hm, hs⟩, rfl⟩
    unfold U32; omega
  · obtain ⟨_, h2, _⟩ := transfer_abs hb hs
    have := congrArg (fun t => t.owner n) h2
    change ownerOf s' m.coll n = put _ n (some dst) n at this
    rw [this]
    unfold put
    rw [if_pos rfl]

/-- C188: the owner of a token approves any other account for it, the zero address included. -/
theorem C188_approve (c : Cfg) (lim : Nat) {s : St} {m : Msg} {p : Acct} {n : Nat} (hst : m.static = false)
    (hv : m.value = 0) (ho : ownerOf s m.coll n = some m.caller) (hp : p ≠ m.caller) (hn : n < 2 ^ 32) :
    ∃ s', call c lim s m (.approve p n) = some (.ok (s', [.approval m.caller p n], .unit)) ∧
      (abs s' m.coll).approved n = p := by
  obtain ⟨k, a, hk, _⟩ := Nft.ownerOf_exists.mp ⟨_, ho⟩
  have hs : ∃ s', Nft.approve s m.caller p m.coll n = .ok s' := by
    simp only [Nft.approve, bind_ok, ensure_ok, okOr_ok, pure_ok]
    exact ⟨_, (), hp.symm, _, ho, (), Or.inl rfl, rfl⟩
  obtain ⟨s', hs⟩ := hs
  refine ⟨s', ?_, ?_⟩
  · unfold call
    rw [hk]
    simp only [Option.some.injEq, bind_ok, ensure_ok]
    refine ⟨(), Or.inl hst, (), hv, ?_⟩
    simp only [run, serial, bind_ok, ensure_ok, pure_ok]
    exact ⟨(), by unfold U32; omega, s', hs, rfl⟩
  · obtain ⟨_, h2, _⟩ := approve_abs hs
    have := congrArg (fun t => t.approved n) h2
    change (abs s' m.coll).approved n = put _ n p n at this
    rw [this]
    unfold put
    rw [if_pos rfl]

/-- Non-vacuity: token 4 of account 1 and token 3 of account 2, for which account 5 is approved. -/
example : ownerOf Nft.demo 100 4 = some 1 ∧ Nft.demo.locks 100 4 = none ∧ (Nft.demo.flags 100).transferable = true ∧
    ownerOf Nft.demo 100 3 = some 2 ∧ (abs Nft.demo 100).approved 3 = 5 := by decide +kernel

/-- C188 fails: the standard says a transfer to the zero address must throw; it succeeds. -/
theorem C188_zero_refuted : ∃ s, Reach Nft.cfg0 NoRepeat s ∧
    said (call Nft.cfg0 1000 s (msg 5) (.transferFrom 2 0 3)) = some ([.transfer 2 0 3], .unit) :=
  ⟨Nft.demo, Nft.demo_reach, by decide +kernel⟩

/-- C188 fails: the standard says `getApproved` of a token that does not exist and `balanceOf` the zero address must throw;
both answer. -/
theorem C188_throw_refuted : ∃ s, Reach Nft.cfg0 NoRepeat s ∧ ownerOf s 100 0 = none ∧
    said (call Nft.cfg0 1000 s (msg 5) (.getApproved 0)) = some ([], .addr 0) ∧
    said (call Nft.cfg0 1000 s (msg 5) (.balanceOf 0)) = some ([], .num 0) :=
  ⟨Nft.demo, Nft.demo_reach, by decide +kernel, by decide +kernel, by decide +kernel⟩

/-- The demonstration, with account 8 an operator of account 2. -/
def opDemo : St := then_ Nft.demo (msg 2) (.setApprovalForAll 8 true)

theorem opDemo_reach : Reach Nft.cfg0 NoRepeat opDemo := by
  have e : Nft.step Nft.cfg0 Nft.demo (.approveAll 2 8 100 true) = .ok opDemo := by rfl
  exact Nft.demo_reach.step (op := .approveAll 2 8 100 true) ⟨trivial, trivial⟩ e

/-- C188 fails: when an operator approves an account for a token, the log names the operator, not the owner of the token,
as the one who did. -/
theorem C188_log_refuted : ∃ s, Reach Nft.cfg0 NoRepeat s ∧ ownerOf s 100 1 = some 2 ∧
    said (call Nft.cfg0 1000 s (msg 8) (.approve 6 1)) = some ([.approval 8 6 1], .unit) :=
  ⟨opDemo, opDemo_reach, by decide +kernel, by decide +kernel⟩

/-- C186 fails: a call of an operator that approves an account for a token of the owner is not what the standard says. -/
theorem C186_operator_refuted : ¬ ∀ (c : Cfg) (lim : Nat) (s s' : St) (m : Msg) (k : Call) (l : List Log) (o : Out),
    Reach c NoRepeat s → call c lim s m k = some (.ok (s', l, o)) → (∀ w, k = .supportsInterface w → w < U256) →
    Std (abs s m.coll) m.caller k (abs s' m.coll) l o := by
  intro h
  have hsome : (call Nft.cfg0 1000 opDemo (msg 8) (.approve 6 1)).isSome = true := by decide +kernel
  obtain ⟨r, hr⟩ := Option.isSome_iff_exists.mp hsome
  have hs : said (call Nft.cfg0 1000 opDemo (msg 8) (.approve 6 1)) = some ([.approval 8 6 1], .unit) := by decide +kernel
  rw [hr] at hs
  cases r with
  | error e => cases hs
  | ok x =>
    obtain ⟨s', l, o⟩ := x
    have e : l = [.approval 8 6 1] := by
      simp only [said, Option.bind_some, Except.toOption, Option.map_some, Option.some.injEq, Prod.mk.injEq] at hs
      exact hs.1
    obtain ⟨a, ha, _, _, hl, _⟩ := h Nft.cfg0 1000 opDemo s' (msg 8) (.approve 6 1) l o opDemo_reach hr (fun w k => by cases k)
    have ho : ownerOf opDemo 100 1 = some 2 := by decide +kernel
    have ha' : ownerOf opDemo 100 1 = some a := ha
    rw [ho] at ha'
    cases ha'
    rw [e] at hl
    cases hl

/-- C188 fails: an operator may approve anybody for a token of the owner, but not itself. -/
theorem C188_operator_refuted : ∃ s, Reach Nft.cfg0 NoRepeat s ∧ (abs s 100).operator 2 8 = true ∧
    ownerOf s 100 1 = some 2 ∧ said (call Nft.cfg0 1000 s (msg 8) (.approve 8 1)) = none ∧
    (said (call Nft.cfg0 1000 s (msg 8) (.approve 9 1))).isSome = true :=
  ⟨opDemo, opDemo_reach, by decide +kernel, by decide +kernel, by decide +kernel, by decide +kernel⟩

/-! ## C191 -/

/-- C191: a static call of the contract changes nothing and leaves no log, and no function takes money. Missing:
`burn`. -/
theorem C191_erc721_partial {c : Cfg} {lim : Nat} {s s' : St} {m : Msg} {k : Call} {l : List Log} {o : Out}
    (h : call c lim s m k = some (.ok (s', l, o))) :
    m.value = 0 ∧ (m.static = true → (∀ n, k ≠ .burn n) → s' = s ∧ l = []) := by
  obtain ⟨_, h1, h2, h⟩ := call_ok h
  refine ⟨h2, fun hst hnb => ?_⟩
  have hv : view k = true := by
    rcases h1 with h1 | h1
    · rw [hst] at h1; cases h1
    · exact h1
  cases k with
  | balanceOf a =>
    simp only [run, Except.ok.injEq, Prod.mk.injEq] at h
    exact ⟨h.1.symm, h.2.1.symm⟩
  | ownerOf n =>
    simp only [run, serial, bind_ok, ensure_ok, okOr_ok, pure_ok, Prod.mk.injEq] at h
    obtain ⟨_, _, a, ha, rfl, rfl, rfl⟩ := h
    exact ⟨rfl, rfl⟩
  | getApproved n =>
    simp only [run, serial, bind_ok, ensure_ok, pure_ok, Prod.mk.injEq] at h
    obtain ⟨_, _, rfl, rfl, rfl⟩ := h
    exact ⟨rfl, rfl⟩
  | isApprovedForAll a p =>
    simp only [run, Except.ok.injEq, Prod.mk.injEq] at h
    exact ⟨h.1.symm, h.2.1.symm⟩
  | totalSupply =>
    simp only [run, bind_ok, okOr_ok, pure_ok, Prod.mk.injEq] at h
    obtain ⟨k1, hk1, rfl, rfl, rfl⟩ := h
    exact ⟨rfl, rfl⟩
  | owner =>
    simp only [run, bind_ok, okOr_ok, pure_ok, Prod.mk.injEq] at h
    obtain ⟨k1, hk1, rfl, rfl, rfl⟩ := h
    exact ⟨rfl, rfl⟩
  | ownedTokens a limit cursor =>
    simp only [run, bind_ok, ensure_ok, okOr_ok, pure_ok, Prod.mk.injEq] at h
    obtain ⟨_, _, _, _, k1, hk1, rfl, rfl, rfl⟩ := h
    exact ⟨rfl, rfl⟩
  | supportsInterface w =>
    simp only [run, Except.ok.injEq, Prod.mk.injEq] at h
    exact ⟨h.1.symm, h.2.1.symm⟩
  | burn n => exact absurd rfl (hnb n)
  | transferFrom src dst n => cases hv
  | approve p n => cases hv
  | setApprovalForAll p ok => cases hv
  | mint dst q => cases hv
  | setMaxSupply x => cases hv
  | togglePublicMint on => cases hv
  | setMintFee asset fee => cases hv
  | renounceOwnership => cases hv
  | transferOwnership new => cases hv
  | enableXls20 => cases hv
  | reRequestXls20 ns => cases hv

/-- Non-vacuity: a static call answers, and may not mint. -/
example : said (call Nft.cfg0 1000 Nft.demo (smsg 1) (.ownerOf 4)) = some ([], .addr 1) ∧
    said (call Nft.cfg0 1000 Nft.demo (smsg 1) (.mint 1 1)) = none ∧
    (said (call Nft.cfg0 1000 Nft.demo (msg 1) (.mint 1 1))).isSome = true ∧
    said (call Nft.cfg0 1000 Nft.demo { msg 1 with value := 1 } (.ownerOf 4)) = none := by decide +kernel

/-- C191 fails: `burn` in a static call destroys the token, and leaves a log. -/
theorem C191_burn_refuted : ∃ s s' o l, Reach Nft.cfg0 NoRepeat s ∧ ownerOf s 100 3 = some 2 ∧
    call Nft.cfg0 1000 s (smsg 5) (.burn 3) = some (.ok (s', l, o)) ∧ l = [.transfer 2 0 3] ∧
    ownerOf s' 100 3 = none := by
  have hk : said (call Nft.cfg0 1000 Nft.demo (smsg 5) (.burn 3)) = some ([.transfer 2 0 3], .unit) := by decide +kernel
  have hk2 : ownerOf (then_ Nft.demo (smsg 5) (.burn 3)) 100 3 = none := by decide +kernel
  unfold said at hk
  unfold then_ at hk2
  cases hc : call Nft.cfg0 1000 Nft.demo (smsg 5) (.burn 3) with
  | none => rw [hc] at hk; cases hk
  | some r =>
    rw [hc] at hk
    cases r with
    | error e => cases hk
    | ok x =>
      obtain ⟨s1, l, o⟩ := x
      simp only [next, hc] at hk2
      change some (l, o) = some _ at hk
      simp only [Option.some.injEq, Prod.mk.injEq] at hk
      exact ⟨Nft.demo, s1, o, l, Nft.demo_reach, by decide +kernel, hc, hk.1, hk2⟩

/-! ## C192 -/

/-- The computation does not panic. -/
def Calm {α : Type} (x : Except Err α) : Prop := x ≠ .error "Panic"

theorem Calm.ensure {p : Prop} [Decidable p] {e : Err} (h : e ≠ "Panic") : Calm (ensure p e) := by
  intro hc; rw [ensure_err] at hc; exact h hc.2

theorem Calm.okOr {α : Type} {o : Option α} {e : Err} (h : e ≠ "Panic") : Calm (okOr o e) := by
  intro hc; rw [okOr_err] at hc; exact h hc.2

theorem Calm.pure {α : Type} {a : α} : Calm (pure a : Except Err α) := fun h => pure_err h

theorem Calm.ok {α : Type} {a : α} : Calm (.ok a : Except Err α) := fun h => nomatch h

theorem Calm.bind {α β : Type} {x : Except Err α} {f : α → Except Err β} (h : Calm x) (k : ∀ a, Calm (f a)) :
    Calm (x >>= f) := by
  intro hc
  rw [bind_err] at hc
  rcases hc with hc | ⟨a, _, hc⟩
  · exact h hc
  · exact k a hc

theorem Calm.ite {α : Type} {p : Prop} [Decidable p] {x y : Except Err α} (h : Calm x) (k : Calm y) :
    Calm (if p then x else y) := by
  split
  · exact h
  · exact k

theorem calm_error {α : Type} {e : Err} (h : e ≠ "Panic") : Calm (.error e : Except Err α) := by
  intro hc; injection hc with hc; exact h hc

/-- One step of a proof that a computation is calm. -/
macro "calm" : tactic => `(tactic| repeat' first
  | with_reducible assumption
  | with_reducible exact Calm.ensure (by decide)
  | with_reducible exact Calm.okOr (by decide)
  | with_reducible exact Calm.pure
  | with_reducible exact Calm.ok
  | with_reducible refine Calm.bind ?_ (fun _ => ?_)
  | with_reducible refine Calm.ite ?_ ?_)

theorem calm_addAll {max : Nat} : ∀ (ns l : List Nat), Calm (Nft.addAll max l ns)
  | [], _ => Calm.ok
  | n :: ns, l => (Calm.ensure (by decide)).bind (fun _ => calm_addAll ns _)

theorem calm_addEntries {max : Nat} {who : Acct} {ns : List Nat} : ∀ (o : List Own), Calm (Nft.addEntries max who ns o)
  | [] => Calm.ok
  | e :: o => by
    have h1 := calm_addAll (max := max) ns e.serials
    have h2 := calm_addEntries (max := max) (who := who) (ns := ns) o
    unfold Nft.addEntries
    calm

theorem calm_addUser {max : Nat} {who : Acct} {ns : List Nat} (o : List Own) : Calm (Nft.addUser max o who ns) := by
  have h := calm_addEntries (max := max) (who := who) (ns := ns) o
  unfold Nft.addUser
  calm

theorem calm_doTransfer {c : Cfg} {s : St} {id : Nat} {ns : List Nat} {a b : Acct} : Calm (Nft.doTransfer c s id ns a b) := by
  have h := fun o => calm_addUser (max := c.maxTokens) (who := b) (ns := ns) o
  unfold Nft.doTransfer
  repeat' first
    | with_reducible exact h _
    | calm

theorem calm_ledger {L : Ledger} {a : AssetId} {x y : Acct} {n : Nat} : Calm (L.transfer a x y n) := by
  unfold Ledger.transfer
  exact Calm.ite Calm.ok (calm_error (by decide))

theorem calm_mint {c : Cfg} {s : St} {who : Acct} {id q : Nat} {rcv : Option Acct} {ext : Bool} :
    Calm (Nft.mint c s who id q rcv ext) := by
  have h1 : ∀ k, Calm (Nft.maybeCharge s id k who q) := by
    intro k
    unfold Nft.maybeCharge Nft.chargeMintFee
    refine Calm.ite ?_ Calm.ok
    split
    · exact Calm.ok
    · exact calm_ledger
  have h2 : ∀ k pub, Calm (Nft.preMint c who q k pub) := by
    intro k pub
    unfold Nft.preMint
    calm
  have h3 : ∀ s k w ns, Calm (Nft.doMint c s id k w ns) := by
    intro s k w ns
    have h := calm_addUser (max := c.maxTokens) (who := w) (ns := ns) k.owned
    unfold Nft.doMint
    calm
  unfold Nft.mint
  repeat' first
    | with_reducible exact h1 _
    | with_reducible exact h2 _ _
    | with_reducible exact h3 _ _ _ _
    | calm

/-- C192: exactly the calls of `reRequestXls20Mint` with more serial numbers than the XLS-20 pallet takes panic (a panic
makes the whole block invalid, it does not revert the call). -/
theorem C192_erc721 {c : Cfg} {lim : Nat} {s : St} {m : Msg} {k : Call} :
    call c lim s m k = some (.error "Panic") ↔
      (∃ k0, s.coll m.coll = some k0) ∧ m.static = false ∧ m.value = 0 ∧
        ∃ ns, k = .reRequestXls20 ns ∧ (∀ n ∈ ns, n < 2 ^ 32) ∧ lim < ns.length := by
  have hU : (2 : Nat) ^ 32 = U32 := by unfold U32; norm_num
  rw [hU]
  unfold call
  cases hk : s.coll m.coll with
  | none => simp
  | some k0 =>
    simp only [Option.some.injEq, exists_eq', true_and]
    constructor
    · intro h
      rw [bind_err] at h
      rcases h with h | ⟨_, h1, h⟩
      · rw [ensure_err] at h; exact absurd h.2 (by decide)
      rw [bind_err] at h
      rcases h with h | ⟨_, h2, h⟩
      · rw [ensure_err] at h; exact absurd h.2 (by decide)
      rw [ensure_ok] at h1 h2
      have calm_of : (∀ ns, k ≠ .reRequestXls20 ns) → Calm (run c lim s m k) := by
        intro hne
        cases k with
        | reRequestXls20 ns => exact absurd rfl (hne ns)
        | transferFrom src dst n =>
          unfold run serial Nft.transferFrom
          repeat' first
            | with_reducible exact calm_doTransfer
            | calm
        | mint dst q =>
          unfold run
          repeat' first
            | with_reducible exact calm_mint
            | calm
        | burn n => unfold run serial Nft.burnPrecompile Nft.doBurn; calm
        | approve p n => unfold run serial Nft.approve; calm
        | setApprovalForAll p ok => unfold run Nft.approveAll; calm
        | setMaxSupply x => unfold run Nft.setMaxIssuance; calm
        | togglePublicMint on => unfold run Nft.setPubMint; calm
        | setMintFee a f => unfold run Nft.setPubMint; calm
        | renounceOwnership => unfold run Nft.setOwner; calm
        | transferOwnership a => unfold run Nft.setOwner; calm
        | enableXls20 => unfold run Nft.enableXls20; calm
        | ownerOf n => unfold run serial; calm
        | getApproved n => unfold run serial; calm
        | _ => unfold run; calm
      by_cases hx : ∃ ns, k = .reRequestXls20 ns
      · obtain ⟨ns, rfl⟩ := hx
        have hst : m.static = false := by
          rcases h1 with h1 | h1
          · exact h1
          · cases h1
        refine ⟨hst, h2, ns, rfl, ?_⟩
        unfold run at h
        rw [bind_err] at h
        rcases h with h | ⟨_, h3, h⟩
        · rw [ensure_err] at h; exact absurd h.2 (by decide)
        rw [bind_err] at h
        rw [ensure_ok] at h3
        rcases h with h | ⟨_, h4, h⟩
        · rw [ensure_err] at h; exact ⟨h3, by omega⟩
        rw [bind_err] at h
        rcases h with h | ⟨_, h5, h⟩
        · rw [ensure_err] at h; exact absurd h.2 (by decide)
        · exact absurd h pure_err
      · exact absurd h (calm_of (fun ns hc => hx ⟨ns, hc⟩))
    · rintro ⟨h1, h2, ns, rfl, h3, h4⟩
      have e3 : ensure (∀ n ∈ ns, n < U32) "XLS20: Expected serial_number <= 2^32" = .ok () := ensure_pos h3
      rw [ensure_pos (Or.inl h1), ensure_pos h2]
      simp only [run, e3]
      show (ensure (ns.length ≤ lim) "Panic" >>= _) = _
      rw [show ensure (ns.length ≤ lim) "Panic" = .error "Panic" from ensure_err.mpr ⟨by omega, rfl⟩]
      rfl

/-- C192 fails: anybody, with a call to the contract of any collection that exists, makes the block invalid. -/
theorem C192_rerequest_refuted {c : Cfg} {lim : Nat} {s : St} {id : Nat} {k0 : Coll} (hk : s.coll id = some k0)
    (caller : Acct) (others : Bool) : ∃ k, call c lim s ⟨id, caller, 0, false, others⟩ k = some (.error "Panic") :=
  ⟨.reRequestXls20 (List.replicate (lim + 1) 0), C192_erc721.mpr ⟨⟨k0, hk⟩, rfl, rfl, _, rfl, (by
    intro n hn
    rw [List.mem_replicate] at hn
    rw [hn.2]; norm_num), by rw [List.length_replicate]; omega⟩⟩

/-! ## C194 -/

/-- C194: the contract says of an interface that it supports it iff it is one of ERC-165, ERC-721, ERC-721 metadata,
burnable, ownable and TRN-721; the id is the first four bytes of the argument and the others do not matter. -/
theorem C194_interfaces {c : Cfg} {lim : Nat} {s : St} {m : Msg} {w : Nat} {k0 : Coll} (hk : s.coll m.coll = some k0)
    (hv : m.value = 0) (hw : w < 2 ^ 256) :
    call c lim s m (.supportsInterface w) = some (.ok (s, [], .flag (decide (w / 2 ^ 224 ∈
      [0x01ffc9a7, 0x80ac58cd, 0x5b5e139f, 0x42966c68, 0x0e083076, 0x2a4288ec])))) := by
  have hw' : w < U256 := by unfold U256 U128; norm_num at hw ⊢; exact hw
  unfold call
  rw [hk]
  simp only [Option.some.injEq, bind_ok, ensure_ok]
  refine ⟨(), Or.inr rfl, (), hv, ?_⟩
  simp only [run, Except.ok.injEq, Prod.mk.injEq, Out.flag.injEq, true_and]
  unfold supports interfaces
  rw [top_bytes hw']
  split
  · rename_i he; rw [he]; rfl
  · rfl

/-- Non-vacuity: ERC-721 in the form a Solidity caller sends it, an id at the wrong end, and the id that must be refused. -/
example : supports (0x80ac58cd * 2 ^ 224) = true ∧ supports (0x80ac58cd * 2 ^ 224 + 77) = true ∧
    supports 0x80ac58cd = false ∧ supports (0xffffffff * 2 ^ 224) = false := by decide +kernel

/-! ## C193 -/

/-- C193: a collection made through the NFT contract is what was asked for: new, without tokens, with that owner, that
maximum supply (none for zero) and those shares of sales for those accounts, which add up to at most a
hundred per cent; nothing of any other collection changes. Missing: a share of more than a hundred per cent is not refused
but counts as a hundred. -/
theorem C193_nft_partial {c : Cfg} {s s' : St} (hr : Reach c Bridged s) {value : Nat} {static : Bool} {owner : Acct}
    {max : Nat} {addrs : List Acct} {ents : List Nat} {id : Nat}
    (h : initialize721 c s value static owner max addrs ents = .ok (s', id)) :
    value = 0 ∧ static = false ∧ s.coll id = none ∧ (∀ j, j ≠ id → s'.coll j = s.coll j) ∧
    ∃ k, s'.coll id = some k ∧ k.owner = owner ∧ k.owned = [] ∧ k.issuance = 0 ∧ k.origin = .root ∧
      (max = 0 → k.maxIss = none) ∧ (max ≠ 0 → k.maxIss = some max) ∧
      (addrs = [] → k.royalties = none) ∧
      (addrs ≠ [] → k.royalties = some (addrs.zip (ents.map (fun e => min e 1000000))) ∧
        (ents.map (fun e => min e 1000000)).sum ≤ 1000000) := by
  simp only [initialize721, Nft.nextUuid, Nft.doCreate, bind_ok, ensure_ok, okOr_ok, pure_ok, Prod.mk.injEq] at h
  obtain ⟨_, h1, _, h2, _, _, _, hlen, _, _, id1, hid, s1, ⟨id2, hid2, _, hmax, _, hroy, o, ho, rfl⟩, rfl, rfl⟩ := h
  rw [hid] at hid2; cases hid2
  have ho' : o = [] := by
    unfold Nft.firstOwned at ho
    rw [if_pos rfl] at ho
    cases ho; rfl
  subst ho'
  refine ⟨h2, h1, hr.ai.fresh hid, fun j hj => upd_ne _ _ hj, _, upd_same _ _ _, rfl, rfl, rfl, rfl, ?_, ?_, ?_, ?_⟩
  · intro hm; exact if_pos hm
  · intro hm; exact if_neg hm
  · intro ha; exact if_pos ha
  · intro ha
    have hmap : ents.map permill = ents.map (fun e => min e 1000000) := by
      refine List.map_congr_left fun e _ => ?_
      unfold permill U32
      omega
    have hr' : royalties addrs ents = some (addrs.zip (ents.map (fun e => min e 1000000))) := by
      unfold royalties
      rw [if_neg ha, hmap]
    refine ⟨hr', ?_⟩
    rw [hr'] at hroy
    unfold Nft.royaltiesOk at hroy
    simp only [Bool.and_eq_true, decide_eq_true_eq] at hroy
    have := hroy.2
    rw [List.map_snd_zip (by rw [List.length_map]; omega)] at this
    exact this

/-- Non-vacuity: the third collection of the demonstration. -/
example : (initialize721 Nft.cfg0 Nft.demo 0 false 5 20 [6, 7] [50000, 20000]).toOption.map
      (fun p => (p.2, (p.1.coll p.2).map (fun k => (k.owner, k.maxIss)))) = some (2148, some (5, some 20)) ∧
    (initialize721 Nft.cfg0 Nft.demo 0 false 5 20 [6, 7] [50000, 20000]).toOption.map
      (fun p => (p.1.coll p.2).map (fun k => k.royalties)) = some (some (some [(6, 50000), (7, 20000)])) := by
  decide +kernel

/-- C193 fails: somebody who asks for a share of sales of 500 per cent (or, mistaken about the unit, for ten to the power
of nine) gets a collection all of whose sales go to that account, not a refusal. -/
theorem C193_royalty_refuted : ∃ s, Reach Nft.cfg0 NoRepeat s ∧
    (initialize721 Nft.cfg0 s 0 false 5 0 [6] [5000000]).toOption.map
      (fun p => (p.1.coll p.2).map (fun k => k.royalties)) = some (some (some [(6, 1000000)])) ∧
    (initialize721 Nft.cfg0 s 0 false 5 0 [6] [10 ^ 9]).toOption.map
      (fun p => (p.1.coll p.2).map (fun k => k.royalties)) = some (some (some [(6, 1000000)])) :=
  ⟨Nft.demo, Nft.demo_reach, by decide +kernel, by decide +kernel⟩

end Verif.Evm721
