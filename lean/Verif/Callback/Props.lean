import Verif.Callback.Sft

/-!
# Properties of contract calls with callbacks: C143–C148

A transaction is `run c code me [] p s`: the account `me` makes the calls `p`. Everything is quantified over all trees of
calls, that is over all contracts.
-/

namespace Verif.Callback

open Market

/-! ## Demonstration -/

/-- Contracts of the examples: 3 (a thief), 4 (a receiver), 5 (a contract that buys tokens). -/
def code0 (a : Acct) : Bool := decide (a = 3 ∨ a = 4 ∨ a = 5)

/-- Contract 3 has tokens 0 and 1 of collection 100; account 2 has the tokens of collection 1124, twenty pieces of a
semi-fungible token and offers 10 for token 0; contract 5 has money, and may take token 1 of contract 3. -/
def ops0 : List Op :=
  [.nft (.create 3 2 none none none false), .nft (.create 2 3 none none none false), .sft (.createColl 2 none),
   .sft (.createToken 2 100 20 none none true), .makeOffer 2 100 0 10 4 none, .assets (.transfer 4 1 5 30),
   .nft (.approve 3 5 100 1)]

def demo : St := exec cfg0 g0 ops0

theorem demo_reach : Reach cfg0 (Env cfg0) demo := by
  refine exec_reach _ (.init genesis_g0) ?_
  simp only [ops0, List.forall_mem_cons, Env, cfg0, NftOutside, SftOutside, Nft.Bridged, AssetsOutside]
  refine ⟨fun _ => trivial, fun _ => trivial, fun _ => trivial, fun _ => trivial, ?_, ?_, fun _ => trivial, fun _ h => nomatch h⟩ <;>
    exact fun _ => by decide

/-- A receiver that accepts everything: it returns the selector, padded to a word. -/
def yes : Answer := fun m => some (m.sel ++ List.replicate 28 0)

theorem yes_long {m : Msg} {b : List Nat} (h : yes m = some b) : 4 ≤ b.length := by
  cases h
  rw [List.length_append, List.length_replicate]
  omega

theorem some_getD {α : Type _} {x : Option α} {d : α} (h : x.isSome = true) : x = some (x.getD d) := by
  cases x with
  | none => cases h
  | some a => rfl

/-! ## C143: tokens and callbacks -/

/-- C143: whatever contracts do in a transaction, the chain stays in a state that ordinary calls reach. So everything
proved of the NFT, SFT and marketplace pallets holds after it. -/
theorem C143_reachable {c : Cfg} {code : Acct → Bool} {me : Acct} {p : Prog} {s s' : St} (h : Reach c (Env c) s)
    (hp : me ≠ c.holds.pot) (hc : code c.holds.pot = false) (hr : run c code me [] p s = some s') : Reach c (Env c) s' :=
  run_induct (A := fun a => a ≠ c.holds.pot) (Q := fun s => Reach c (Env c) s)
    (fun a ha hx => by rw [hx, hc] at ha; exact Bool.false_ne_true ha)
    (fun _ _ _ _ ha hb hq hs => hq.step (opBy_env hb ha) hs)
    (fun _ _ _ _ _ _ _ _ _ _ _ hq hs => give721_reach hq hs)
    (fun _ _ _ _ _ _ _ _ hq hs => give1155_reach hq hs) p me [] s s' hp h hr

/-- C143 (partial): a token that an account owned before the transaction, that it has not listed, for which nobody is
approved and in a collection where it has no operators stays with the account, whatever contracts do, if the account
makes no call itself. Missing: tokens the account receives during the transaction, see `C143_refuted`. -/
theorem C143_held_partial {c : Cfg} {code : Acct → Bool} {me v : Acct} {p : Prog} {s s' : St} {id n : Nat}
    (h : Reach c (Env c) s) (hp : me ≠ c.holds.pot) (hc : code c.holds.pot = false) (hv : me ≠ v) (hvc : code v = false)
    (hown : Nft.ownerOf s.nft id n = some v) (hlock : s.nft.locks id n = none) (happ : s.nft.approvals id n = none)
    (hops : ∀ b, s.nft.forAll v id b = false) (hr : run c code me [] p s = some s') :
    Nft.ownerOf s'.nft id n = some v ∧ s'.nft.locks id n = none ∧ s'.nft.approvals id n = none := by
  have key := run_induct (c := c) (code := code) (A := fun a => a ≠ c.holds.pot ∧ a ≠ v)
    (Q := fun s => Reach c (Env c) s ∧ Held v id n s.nft)
    (fun a ha => ⟨fun hx => by rw [hx, hc] at ha; exact Bool.false_ne_true ha,
      fun hx => by rw [hx, hvc] at ha; exact Bool.false_ne_true ha⟩)
    (fun _ _ _ _ ha hb hq hs => ⟨hq.1.step (opBy_env hb ha.1) hs,
      hq.2.step (hq.1.good (fun _ _ h => h)) ha.2 ha.1 hb hs⟩)
    (fun m j k src dst s1 t u ha hau hq hqt hs => by
      refine ⟨give721_reach hqt.1 hs, ?_⟩
      simp only [give721, Market.step, bind_ok, pure_ok] at hs
      obtain ⟨w, hw, rfl⟩ := hs
      refine hqt.2.transfer (hqt.1.good (fun _ _ h => h)).lk.nr hw ?_
      rintro ⟨rfl, hk⟩
      rw [List.mem_singleton] at hk
      subst hk
      rw [hq.2.notApproved ha.2] at hau
      exact Bool.false_ne_true hau)
    (fun m j xs src dst t u ha hq hs => by
      refine ⟨give1155_reach hq.1 hs, ?_⟩
      have hs := (give1155_ok hs).2
      simp only [Market.step, bind_ok, pure_ok] at hs
      obtain ⟨w, hw, rfl⟩ := hs
      exact hq.2)
    p me [] s s' ⟨hp, hv⟩ ⟨h, hown, hlock, happ, hops⟩ hr
  exact ⟨key.2.own, key.2.lock, key.2.app⟩

/-- The attack: contract 3, asked by account 9, calls `safeTransferFrom(2, 3, 0)` for its own token 0. While it is asked
whether it accepts the token it accepts the offer of account 2. Then the token is taken from account 2. -/
def theft : Prog := .call 3 (.safe721 0 100 0 2 3 (.op 0 (.acceptOffer 3 0) .stop) yes .stop) true .stop

def stolen : St := (run cfg0 code0 9 [] theft demo).getD demo

/-- C143 is false as a general claim: an account that offered 10 for a token and did nothing else pays the 10 and does
not have the token, which is back with the contract that sold it. -/
theorem C143_refuted : ∃ s s' me p, Reach cfg0 (Env cfg0) s ∧ run cfg0 code0 me [] p s = some s' ∧ me ≠ 2 ∧
    code0 2 = false ∧ s.offers 0 = some ⟨100, 0, 4, 10, 2, none⟩ ∧ Holds.holdOf (s.hs.holds 4 2) cfg0.pid = 10 ∧
    Nft.ownerOf s.nft 100 0 = some 3 ∧
    s'.offers 0 = none ∧ Holds.holdOf (s'.hs.holds 4 2) cfg0.pid = 0 ∧ s'.hs.ledger.bal 4 2 = s.hs.ledger.bal 4 2 ∧
    s'.hs.ledger.bal 4 3 = s.hs.ledger.bal 4 3 + 10 ∧ Nft.ownerOf s'.nft 100 0 = some 3 :=
  ⟨demo, stolen, 9, theft, demo_reach, some_getD (by decide +kernel), by decide, by decide +kernel, by decide +kernel,
    by decide +kernel, by decide +kernel, by decide +kernel, by decide +kernel, by decide +kernel, by decide +kernel,
    by decide +kernel⟩

/-- Non-vacuity of `C143_held_partial`: in the same transaction the tokens account 2 owned before stay. -/
example : Nft.ownerOf demo.nft 1124 0 = some 2 ∧ demo.nft.locks 1124 0 = none ∧ demo.nft.approvals 1124 0 = none ∧
    (∀ b, demo.nft.forAll 2 1124 b = false) ∧ (run cfg0 code0 9 [] theft demo).isSome = true ∧
    Nft.ownerOf stolen.nft 1124 0 = some 2 := by
  refine ⟨?_, ?_, ?_, fun b => rfl, ?_, ?_⟩ <;> decide +kernel

/-- C143: without a receiver contract a safe transfer does what `transferFrom` does. -/
theorem C143_plain {c : Cfg} {code : Acct → Bool} {me : Acct} {s s' : St} {id n tail : Nat} {src dst : Acct} {b : Prog}
    {f : Answer} (hd : code dst = false) :
    run c code me [] (.safe721 tail id n src dst b f .stop) s = some s' ↔
    s' = attempt s (step c s (.nft (.transferFrom me id n src dst))) := by
  have e : step c s (.nft (.transferFrom me id n src dst)) =
      if Nft.isApprovedOrOwner s.nft id n me = true then give721 c s id n src dst
      else .error "ERC721: Caller not approved" := by
    simp only [give721, step, Nft.step, Nft.transferFrom]
    split
    · rename_i hx
      rw [ensure_pos hx]
      rfl
    · rename_i hx
      simp [ensure, hx, bind, Except.bind]
  simp only [run, free, List.contains_nil, Bool.not_false, true_and, hd, Bool.false_eq_true, if_false]
  rw [e]
  split
  · simp only [Option.some.injEq]; exact eq_comm
  · simp only [Option.some.injEq, attempt]; exact eq_comm

/-! ## C144: no panic -/

/-- Every receiver that returns returns at least four bytes. -/
def Long : Prog → Prop
  | .stop => True
  | .op _ _ next => Long next
  | .safe721 _ _ _ _ _ body f next => (∀ m b, f m = some b → 4 ≤ b.length) ∧ Long body ∧ Long next
  | .safe1155 _ _ _ _ _ _ body f next => (∀ m b, f m = some b → 4 ≤ b.length) ∧ Long body ∧ Long next
  | .call _ body _ next => Long body ∧ Long next

theorem accepted_long {w : List Nat} {x : Option (List Nat)} (h : ∀ b, x = some b → 4 ≤ b.length) :
    ∃ ok, accepted w x = some ok := by
  unfold accepted
  split
  · exact ⟨_, rfl⟩
  · rename_i b
    have := h b rfl
    rw [if_neg (by omega)]
    exact ⟨_, rfl⟩

/-- C144 (partial): a transaction in which every receiver answers with four bytes or more, or reverts, does not panic.
Missing: receivers that return less, see `C144_refuted`. -/
theorem C144_no_panic_partial {c : Cfg} {code : Acct → Bool} : ∀ (p : Prog) (me : Acct) (busy : List Addr) (s : St),
    Long p → ∃ s', run c code me busy p s = some s'
  | .stop, _, _, s, _ => ⟨s, rfl⟩
  | .op _ _ next, me, busy, _, h => C144_no_panic_partial next me busy _ h
  | .safe721 tail id n src dst body f next, me, busy, s, h => by
    simp only [run]
    split
    · split
      · obtain ⟨t, ht⟩ := C144_no_panic_partial (c := c) (code := code) body dst ((false, id, tail) :: busy) s h.2.1
        rw [ht]
        obtain ⟨ok, hok⟩ := accepted_long (w := sel721) (x := f (msg721 me src dst n)) (fun b hb => h.1 _ b hb)
        dsimp only
        rw [hok]
        exact C144_no_panic_partial next me busy _ h.2.2
      · exact C144_no_panic_partial next me busy _ h.2.2
    · exact C144_no_panic_partial next me busy _ h.2.2
  | .safe1155 batch tail id xs src dst body f next, me, busy, s, h => by
    simp only [run]
    split
    · split
      · obtain ⟨t, ht⟩ := C144_no_panic_partial (c := c) (code := code) body dst ((true, id, tail) :: busy) s h.2.1
        rw [ht]
        obtain ⟨ok, hok⟩ := accepted_long (w := (ask1155 batch me src xs).2) (x := f (ask1155 batch me src xs).1)
          (fun b hb => h.1 _ b hb)
        dsimp only
        rw [hok]
        exact C144_no_panic_partial next me busy _ h.2.2
      · exact C144_no_panic_partial next me busy _ h.2.2
    · exact C144_no_panic_partial next me busy _ h.2.2
  | .call dst body ok next, me, busy, s, h => by
    simp only [run]
    split
    · obtain ⟨t, ht⟩ := C144_no_panic_partial (c := c) (code := code) body dst busy s h.1
      rw [ht]
      exact C144_no_panic_partial next me busy _ h.2
    · exact C144_no_panic_partial next me busy _ h.2

example : Long theft ∧ (run cfg0 code0 9 [] theft demo).isSome = true :=
  ⟨⟨⟨fun _ _ hb => yes_long hb, trivial, trivial⟩, trivial⟩, by decide +kernel⟩

/-- C144 is false in general: the owner of a token sends it to a contract that returns nothing, and the node panics. The
same happens with ERC-1155 transfers. -/
theorem C144_refuted : (∃ s p, Reach cfg0 (Env cfg0) s ∧ run cfg0 code0 3 [] p s = none) ∧
    (∀ (s : St) (me src : Acct) (xs : List (Nat × Nat)) (batch : Bool) (id : Nat),
      run cfg0 code0 me [] (.safe1155 batch 0 id xs src 4 .stop (fun _ => some []) .stop) s = none) := by
  refine ⟨⟨demo, .safe721 0 100 0 3 4 .stop (fun _ => some []) .stop, demo_reach, ?_⟩, fun s me src xs batch id => rfl⟩
  rw [← Option.not_isSome_iff_eq_none]
  decide +kernel

/-! ## C145, C146: what receivers are told -/

/-- ERC-721: "the contract address is always the message sender"; the arguments are the operator, the previous owner and
the token. -/
def std721 (operator src : Acct) (a : Addr) (n : Nat) : Msg := ⟨.inr a, sel721, [operator, src], [[n]]⟩

/-- ERC-1155: the operator, the previous owner, the ids and the amounts; the token contract is the sender. -/
def std1155 (batch : Bool) (operator src : Acct) (a : Addr) (xs : List (Nat × Nat)) : Msg :=
  ⟨.inr a, if batch = true then selBatch else sel1155, [operator, src], [xs.map Prod.fst, xs.map Prod.snd]⟩

/-- A receiver that accepts the message `m` and nothing else. -/
def only (m : Msg) : Answer := fun x => if x = m then some m.sel else none

/-- C145 is false: a contract that accepts a token when it is told what the standard prescribes never gets one by a safe
transfer. -/
theorem C145_721_refuted (c : Cfg) (code : Acct → Bool) (me src dst : Acct) (s : St) (tail id n : Nat) (b : Prog)
    (hb : Long b) (hd : code dst = true) :
    run c code me [] (.safe721 tail id n src dst b (only (std721 me src (false, id, tail) n)) .stop) s = some s := by
  have e : only (std721 me src (false, id, tail) n) (msg721 me src dst n) = none := by
    unfold only
    rw [if_neg (by intro hx; cases hx)]
  simp only [run]
  split
  · obtain ⟨t, ht⟩ := C144_no_panic_partial (c := c) (code := code) b dst [(false, id, tail)] s hb
    rw [ht]
    dsimp only
    rw [e]
    rfl
  · rfl

/-- Even without a look at the sender: the operator and the previous owner are not where the standard puts them, unless
the token is sent by its owner to its owner, which fails. -/
theorem C145_721_arguments {me src dst : Acct} {n : Nat} {a : Addr} :
    (msg721 me src dst n).addrs = (std721 me src a n).addrs ↔ me = src ∧ src = dst := by
  simp only [msg721, std721, List.cons.injEq, and_true]
  constructor
  · rintro ⟨h1, h2⟩; exact ⟨h1.symm, h2.symm⟩
  · rintro ⟨rfl, rfl⟩; exact ⟨rfl, rfl⟩

/-- The same for ERC-1155. -/
theorem C145_1155_refuted (c : Cfg) (code : Acct → Bool) (me src dst : Acct) (s : St) (tail id : Nat) (batch : Bool)
    (xs : List (Nat × Nat)) (b : Prog) (hb : Long b) (hd : code dst = true) :
    run c code me [] (.safe1155 batch tail id xs src dst b (only (std1155 batch me src (true, id, tail) xs)) .stop) s =
      some s := by
  have e : only (std1155 batch me src (true, id, tail) xs) (ask1155 batch me src xs).1 = none := by
    unfold only
    rw [if_neg]
    intro hx
    cases batch <;> cases hx
  simp only [run]
  split
  · obtain ⟨t, ht⟩ := C144_no_panic_partial (c := c) (code := code) b dst [(true, id, tail)] s hb
    rw [ht]
    dsimp only
    rw [e]
    rfl
  · rfl

/-- C145 (partial): a single ERC-1155 transfer tells the receiver the operator, the previous owner, the ids and the
amounts as the standard says, and a receiver that accepts that gets the tokens if the caller may send them. -/
theorem C145_1155_partial {c : Cfg} {code : Acct → Bool} {me src dst : Acct} {s s' : St} {tail id : Nat}
    {xs : List (Nat × Nat)} (hd : code dst = true) (h0 : dst ≠ 0)
    (hs : step c s (.sft (.safeTransfer me id xs src dst)) = .ok s') (a : Addr) :
    run c code me [] (.safe1155 false tail id xs src dst .stop
      (fun m => if m.sel = (std1155 false me src a xs).sel ∧ m.addrs = (std1155 false me src a xs).addrs ∧
        m.nums = (std1155 false me src a xs).nums then some sel1155 else none) .stop) s = some s' := by
  have e : give1155 c s me id xs src dst = .ok s' := by
    unfold give1155
    rw [ensure_pos h0]
    exact hs
  simp only [run, free, List.contains_nil, Bool.not_false, if_true, hd]
  rw [if_pos ⟨rfl, rfl, rfl⟩]
  show some (finish s (give1155 c s me id xs src dst) (decide (sel1155.take 4 = sel1155))) = some s'
  rw [e]
  rfl

example : (run cfg0 code0 2 [] (.safe1155 false 0 100 [(0, 5)] 2 4 .stop yes .stop) demo).map
    (fun s => (Sft.free s.sft 100 0 2, Sft.free s.sft 100 0 4)) = some (15, 5) := by decide +kernel

/-- A receiver as the standard describes it: it answers each of the three questions with its selector, reverts
otherwise, and looks at nothing else. -/
def standard : Answer := fun m =>
  if m.sel = sel721 ∨ m.sel = sel1155 ∨ m.sel = selBatch then some (m.sel ++ List.replicate 28 0) else none

/-- C146 is false: a batch of tokens never reaches a contract with a standard receiver, whoever sends it. -/
theorem C146_refuted (c : Cfg) (code : Acct → Bool) (me src dst : Acct) (s : St) (tail id : Nat) (xs : List (Nat × Nat))
    (b : Prog) (hb : Long b) (hd : code dst = true) :
    run c code me [] (.safe1155 true tail id xs src dst b standard .stop) s = some s := by
  simp only [run]
  split
  · obtain ⟨t, ht⟩ := C144_no_panic_partial (c := c) (code := code) b dst [(true, id, tail)] s hb
    rw [ht]
    rfl
  · rfl

/-- C146 (partial): single transfers reach a standard receiver exactly when the caller may send the tokens. -/
theorem C146_single_partial {c : Cfg} {code : Acct → Bool} {me src dst : Acct} {s : St} {tail id : Nat}
    {xs : List (Nat × Nat)} (h0 : dst ≠ 0) :
    run c code me [] (.safe1155 false tail id xs src dst .stop standard .stop) s =
      some (attempt s (step c s (.sft (.safeTransfer me id xs src dst)))) := by
  have e : give1155 c s me id xs src dst = step c s (.sft (.safeTransfer me id xs src dst)) := by
    unfold give1155
    rw [ensure_pos h0]
    rfl
  simp only [run, free, List.contains_nil, Bool.not_false, if_true]
  split
  · show some (finish s (give1155 c s me id xs src dst) (decide ((sel1155 ++ List.replicate 28 0).take 4 = sel1155))) = _
    rw [e]
    rfl
  · rw [e]

example : (run cfg0 code0 2 [] (.safe1155 true 0 100 [(0, 5)] 2 4 .stop standard .stop) demo).map
    (fun s => Sft.free s.sft 100 0 4) = some 0 ∧
    (run cfg0 code0 2 [] (.safe1155 true 0 100 [(0, 5)] 2 6 .stop standard .stop) demo).map
    (fun s => Sft.free s.sft 100 0 6) = some 5 ∧
    (run cfg0 code0 2 [] (.safe1155 false 0 100 [(0, 5)] 2 4 .stop standard .stop) demo).map
    (fun s => Sft.free s.sft 100 0 4) = some 5 := by decide +kernel

/-! ## C147: semi-fungible tokens and callbacks -/

/-- C147: no piece of a semi-fungible token leaves an account that has no operators in the collection and makes no call
itself, whatever contracts do. Pieces it receives during the transaction are safe as well. -/
theorem C147_consent {c : Cfg} {code : Acct → Bool} {me v : Acct} {p : Prog} {s s' : St} {id : Nat}
    (h : Reach c (Env c) s) (hp : me ≠ c.holds.pot) (hc : code c.holds.pot = false) (hv : me ≠ v) (hvc : code v = false)
    (hops : ∀ b, s.sft.forAll v id b = false) (hr : run c code me [] p s = some s') :
    (∀ n, Sft.free s.sft id n v ≤ Sft.free s'.sft id n v) ∧ ∀ b, s'.sft.forAll v id b = false := by
  have key := run_induct (c := c) (code := code) (A := fun a => a ≠ c.holds.pot ∧ a ≠ v)
    (Q := fun t => Reach c (Env c) t ∧ Keeps v id (fun n => Sft.free s.sft id n v) t.sft)
    (fun a ha => ⟨fun hx => by rw [hx, hc] at ha; exact Bool.false_ne_true ha,
      fun hx => by rw [hx, hvc] at ha; exact Bool.false_ne_true ha⟩)
    (fun _ _ _ _ ha hb hq hs => ⟨hq.1.step (opBy_env hb ha.1) hs,
      hq.2.step (hq.1.good (fun _ _ h => h)) ha.2 ha.1 hb hs⟩)
    (fun m j k src dst s1 t u ha hau hq hqt hs => by
      refine ⟨give721_reach hqt.1 hs, ?_⟩
      simp only [give721, Market.step, bind_ok, pure_ok] at hs
      obtain ⟨w, hw, rfl⟩ := hs
      exact hqt.2)
    (fun m j xs src dst t u ha hq hs => by
      refine ⟨give1155_reach hq.1 hs, ?_⟩
      have hs := (give1155_ok hs).2
      simp only [Market.step, bind_ok, pure_ok] at hs
      obtain ⟨w, hw, rfl⟩ := hs
      exact hq.2.transfer (hq.1.good (fun _ _ h => h)).lk.si ha.2 hw)
    p me [] s s' ⟨hp, hv⟩ ⟨h, fun n => le_refl _, hops⟩ hr
  exact ⟨key.2.amt, key.2.ops⟩

/-- Non-vacuity: contract 3 tries to take pieces of account 2, with a callback in between; account 2 sends some itself. -/
example : (run cfg0 code0 9 [] (.call 3 (.safe1155 false 0 100 [(0, 5)] 2 3 .stop yes .stop) true .stop) demo).map
    (fun s => Sft.free s.sft 100 0 2) = some 20 ∧ (∀ b, demo.sft.forAll 2 100 b = false) := by
  refine ⟨?_, fun b => rfl⟩
  decide +kernel

end Verif.Callback
