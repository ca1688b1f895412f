import Verif.Gas.Model

/-!
# Gas of built-in contracts: the properties
-/

namespace Verif.Gas

/-- Specification: what the EVM charges any contract for logs (375 gas for each, 375 for a topic, 8 for a byte). -/
def evmLogGas : List (Nat × Nat) → Nat
  | [] => 0
  | (topics, bytes) :: rest => 375 + 375 * topics + 8 * bytes + evmLogGas rest

theorem evmLogGas_replicate (n : Nat) (l : Nat × Nat) :
    evmLogGas (List.replicate n l) = n * (375 + 375 * l.1 + 8 * l.2) := by
  induction n with
  | zero => simp [evmLogGas]
  | succ n ih => rcases l with ⟨a, b⟩; rw [List.replicate_succ, evmLogGas, ih, Nat.succ_mul n]; dsimp only; omega

theorem evmLogGas_map (ns : List Nat) : evmLogGas (ns.map (fun n => (4, 64 + 32 * n))) = 2387 * ns.length + 256 * ns.sum := by
  induction ns with
  | nil => rfl
  | cons n ns ih => simp only [List.map_cons, evmLogGas, ih, List.length_cons, List.sum_cons]; omega

/-- Specification: the calls whose logs cost less than those of other contracts. -/
def Cheap : Fn → Prop
  | .erc20Approve | .erc20Transfer => True
  | .nftTransferFrom | .nftSafeTransferFrom | .nftApprove | .nftSetApprovalForAll | .nftSetBaseUri _ | .nftEnableXls20 => True
  | .nftMint n => 1 ≤ n
  | .nftReRequestXls20 n => 2 ≤ n
  | .sftSafeTransferFrom | .sftSafeBatchTransferFrom _ | .sftBurn | .sftBurnBatch _ | .sftMint | .sftMintBatch _
  | .sftSetBaseUri _ | .sftSetMintFee => True
  | .dexAddEth => True
  | .dexSwap n => 1 ≤ n
  | .marketRegister | .marketSellNft _ | .marketSellSft _ | .marketUpdate _ | .marketBuy _ | .marketAuctionNft _
  | .marketAuctionSft _ | .marketBid | .marketCancel _ | .marketOffer | .marketCancelOffer | .marketAccept => True
  | .pegErc20 => True
  | .pegErc721 ns => ns ≠ []
  | _ => False

/-- **C210** (partial): a call of a built-in contract is charged for its logs what any contract is charged for the same logs, or more —
but for the calls listed, which are charged less. -/
theorem C210_logs_partial (f : Fn) : logCharge f < evmLogGas (emitted f) ↔ Cheap f := by
  cases f <;> simp only [logCharge, recorded, logCost, emitted, Cheap, evmLogGas_replicate, evmLogGas_map, evmLogGas, Option.map_some,
    Option.map_none, Option.getD_some, Option.getD_none, padded, iff_true, iff_false] <;> try omega
  case pegErc721 ns =>
    cases ns with
    | nil => simp
    | cons n ns => simp only [List.length_cons, List.sum_cons, ne_eq, reduceCtorEq, not_false_eq_true, iff_true]; omega

example : logCharge .erc20TransferFrom = 1756 ∧ evmLogGas (emitted .erc20TransferFrom) = 1756 := by decide +kernel
example : logCharge .erc20Transfer = 1381 ∧ evmLogGas (emitted .erc20Transfer) = 1756 := by decide +kernel

/-- **C210** (refuted): calls of built-in contracts are charged less for their logs than other contracts; with every token of a batch the
difference grows by 512 gas, with every token minted by 1875. -/
theorem C210_logs_refuted :
    (∃ f, logCharge f < evmLogGas (emitted f)) ∧
      (∀ n, logCharge (.sftSafeBatchTransferFrom n) + 512 * n ≤ evmLogGas (emitted (.sftSafeBatchTransferFrom n))) ∧
      ∀ n, logCharge (.nftMint n) + 1875 * n = evmLogGas (emitted (.nftMint n)) + 1381 := by
  refine ⟨⟨.erc20Transfer, by decide +kernel⟩, fun n => ?_, fun n => ?_⟩
  · simp only [logCharge, recorded, logCost, emitted, evmLogGas, Option.map_some, Option.getD_some]; omega
  · simp only [logCharge, recorded, logCost, emitted, evmLogGas_replicate, Option.map_some, Option.getD_some]; omega

/-- The weight done is no more than declared. -/
def Honest (tasks : List Task) : Prop := ∀ t ∈ tasks, t.actual ≤ t.declared

theorem charge_ok {gas cost g : Nat} (h : charge gas cost = some g) : cost ≤ gas ∧ g = gas - cost := by
  unfold charge at h
  split at h
  · exact ⟨by assumption, by simpa using h.symm⟩
  · exact absurd h (by simp)

theorem weight_le {per w : Nat} (hp : 0 < per) : w ≤ w / per * per + (per - 1) := by
  have h1 := Nat.div_add_mod w per
  have h2 := Nat.mod_lt w hp
  rw [Nat.mul_comm] at h1
  omega

/-- What is known of a piece of work. -/
def TaskOk (per gas a : Nat) (k : Work) : Option (Nat × Bool) → Prop
  | none => a = 0
  | some (g, true) => g ≤ gas ∧ a ≤ (gas - g) * per + (per - 1)
  | some (g, false) => g ≤ gas ∧ (k = .upfront → a ≤ (gas - g) * per + (per - 1))

theorem runTask_le {per gas : Nat} {t : Task} {k : Work} (hp : 0 < per) (ht : t.actual ≤ t.declared) (hk : k ≠ .direct) {a : Nat}
    {r : Option (Nat × Bool)} (h : runTask per gas t k = (a, r)) :
    TaskOk per gas a k r := by
  have hd : t.actual / per ≤ t.declared / per := Nat.div_le_div_right ht
  cases k with
  | direct => exact absurd rfl hk
  | dispatch =>
    simp only [runTask] at h
    have hd2 : toGas per t.actual ≤ toGas per t.declared := hd
    by_cases h1 : gas < toGas per t.declared
    · rw [if_pos h1] at h
      obtain ⟨rfl, rfl⟩ := Prod.mk.inj h
      rfl
    · rw [if_neg h1] at h
      by_cases h2 : t.succeeds = false
      · rw [if_pos h2] at h
        obtain ⟨rfl, rfl⟩ := Prod.mk.inj h
        exact ⟨Nat.le_refl _, fun h => absurd h (by simp)⟩
      · have h3 : charge gas (toGas per t.actual) = some (gas - toGas per t.actual) := by
          unfold charge
          rw [if_pos (by omega)]
        rw [if_neg h2, h3] at h
        obtain ⟨rfl, rfl⟩ := Prod.mk.inj h
        refine ⟨Nat.sub_le _ _, ?_⟩
        rw [Nat.sub_sub_self (by omega)]
        exact weight_le hp
  | upfront =>
    simp only [runTask, toGas] at h
    split at h
    · obtain ⟨rfl, rfl⟩ := Prod.mk.inj h
      rfl
    · rename_i g hc
      obtain ⟨rfl, rfl⟩ := Prod.mk.inj h
      obtain ⟨h1, rfl⟩ := charge_ok hc
      have h2 : t.actual ≤ (gas - (gas - t.declared / per)) * per + (per - 1) := by
        rw [Nat.sub_sub_self h1]
        exact Nat.le_trans ht (weight_le hp)
      cases h3 : t.succeeds
      · exact ⟨Nat.sub_le _ _, fun _ => h2⟩
      · exact ⟨Nat.sub_le _ _, h2⟩

theorem runTasks_le {per : Nat} (hp : 0 < per) :
    ∀ (l : List (Work × Task)) (gas w : Nat), (∀ x ∈ l, x.1 ≠ .direct ∧ x.2.actual ≤ x.2.declared) →
      (runTasks per l gas w).left ≤ gas ∧
        ((runTasks per l gas w).outcome ≠ .reverted ∨ (∀ x ∈ l, x.1 = .upfront) →
          (runTasks per l gas w).weight ≤ w + (gas - (runTasks per l gas w).left) * per + l.length * (per - 1))
  | [], gas, w, _ => ⟨Nat.le_refl _, fun _ => by simp [runTasks]⟩
  | (k, t) :: rest, gas, w, hl => by
    have hx := hl (k, t) (List.mem_cons_self ..)
    have hrest := fun x hx => hl x (List.mem_cons_of_mem _ hx)
    rcases hr : runTask per gas t k with ⟨a, r⟩
    have hle := runTask_le hp hx.2 hx.1 hr
    have hlen : (((k, t) :: rest).length) * (per - 1) = rest.length * (per - 1) + (per - 1) := by
      rw [List.length_cons, Nat.succ_mul]
    rw [hlen]
    match r, hr, hle with
    | none, hr, hle =>
      have hle : a = 0 := hle
      have e : runTasks per ((k, t) :: rest) gas w = ⟨.outOfGas, 0, w + a⟩ := by simp only [runTasks, hr]
      rw [e]
      subst hle
      exact ⟨Nat.zero_le _, fun _ => by dsimp only; omega⟩
    | some (g, false), hr, hle =>
      have hle : g ≤ gas ∧ (k = .upfront → a ≤ (gas - g) * per + (per - 1)) := hle
      have e : runTasks per ((k, t) :: rest) gas w = ⟨.reverted, g, w + a⟩ := by simp only [runTasks, hr]
      rw [e]
      refine ⟨hle.1, fun h => ?_⟩
      have h' : ∀ x ∈ (k, t) :: rest, x.1 = .upfront := h.resolve_left (by simp)
      have h2 := hle.2 (h' (k, t) (List.mem_cons_self ..))
      dsimp only
      omega
    | some (g, true), hr, hle =>
      have hle : g ≤ gas ∧ a ≤ (gas - g) * per + (per - 1) := hle
      have e : runTasks per ((k, t) :: rest) gas w = runTasks per rest g (w + a) := by simp only [runTasks, hr]
      rw [e]
      obtain ⟨i1, i2⟩ := runTasks_le hp rest g (w + a) hrest
      refine ⟨Nat.le_trans i1 hle.1, fun h => ?_⟩
      have h2 := i2 (h.imp id (fun h x hx => h x (List.mem_cons_of_mem _ hx)))
      have h3 : (gas - (runTasks per rest g (w + a)).left) = (gas - g) + (g - (runTasks per rest g (w + a)).left) := by omega
      rw [h3, Nat.add_mul]
      omega

theorem zip_spec {f : Fn} {tasks : List Task} (hf : f ≠ .sftCreateToken) (ht : Honest tasks) :
    ∀ x ∈ (work f).zip tasks, x.1 ≠ .direct ∧ x.2.actual ≤ x.2.declared := by
  intro x hx
  obtain ⟨h1, h2⟩ := List.of_mem_zip (a := x.1) (b := x.2) hx
  refine ⟨?_, ht _ h2⟩
  rintro e
  rw [e] at h1
  cases f <;> simp_all [work]

theorem call_le {per : Nat} (hp : 0 < per) {f : Fn} (hf : f ≠ .sftCreateToken) {tasks : List Task} (ht : Honest tasks) (reads gas : Nat) :
    (call per f reads tasks gas).left ≤ gas ∧
      ((call per f reads tasks gas).outcome ≠ .reverted ∨ (∀ k ∈ work f, k = .upfront) →
        (call per f reads tasks gas).weight ≤
          (gas - (call per f reads tasks gas).left) * per + (work f).length * (per - 1)) := by
  unfold call
  split
  · exact ⟨Nat.zero_le _, fun _ => Nat.zero_le _⟩
  · rename_i g hc
    obtain ⟨c1, c2⟩ := charge_ok hc
    obtain ⟨i1, i2⟩ := runTasks_le hp ((work f).zip tasks) g 0 (zip_spec hf ht)
    have hlen : ((work f).zip tasks).length * (per - 1) ≤ (work f).length * (per - 1) :=
      Nat.mul_le_mul_right _ (by rw [List.length_zip]; exact Nat.min_le_left _ _)
    have hgg : g ≤ gas := by omega
    dsimp only
    split
    · rename_i hdone
      have i3 := i2 (Or.inl (by rw [hdone.2]; simp))
      split
      · refine ⟨Nat.zero_le _, fun _ => ?_⟩
        dsimp only
        have : (g - (runTasks per ((work f).zip tasks) g 0).left) * per ≤ (gas - 0) * per := Nat.mul_le_mul_right _ (by omega)
        omega
      · rename_i g2 hc2
        obtain ⟨d1, d2⟩ := charge_ok hc2
        refine ⟨by dsimp only; omega, fun _ => ?_⟩
        dsimp only
        have : (g - (runTasks per ((work f).zip tasks) g 0).left) * per ≤ (gas - g2) * per := Nat.mul_le_mul_right _ (by omega)
        omega
    · refine ⟨Nat.le_trans i1 hgg, fun h => ?_⟩
      have i3 := i2 (h.imp id (fun h x hx => h x.1 (List.of_mem_zip (a := x.1) (b := x.2) hx).1))
      have : (g - (runTasks per ((work f).zip tasks) g 0).left) * per ≤ (gas - (runTasks per ((work f).zip tasks) g 0).left) * per :=
        Nat.mul_le_mul_right _ (by omega)
      omega

/-- **C211** (partial): what a successful call of a built-in contract (or one that runs out of gas) does is paid for: the weight of the
work done is at most the gas it consumed, at the fixed rate (rounded for each piece of work) — but for the creation of SFT tokens.
Missing: calls that revert. -/
theorem C211_paid_partial {per : Nat} (hp : 0 < per) {f : Fn} (hf : f ≠ .sftCreateToken) {tasks : List Task} (ht : Honest tasks)
    (reads gas : Nat) (ho : (call per f reads tasks gas).outcome ≠ .reverted) :
    (call per f reads tasks gas).left ≤ gas ∧
      (call per f reads tasks gas).weight ≤ (gas - (call per f reads tasks gas).left) * per + (work f).length * (per - 1) :=
  ⟨(call_le hp hf ht reads gas).1, (call_le hp hf ht reads gas).2 (Or.inl ho)⟩

/-- Specification: the functions that pay before the work is begun. -/
def PaysFirst : Fn → Prop
  | .dexAdd | .dexAddEth | .dexRemove | .dexRemoveEth | .dexSwap _ => True
  | .passCreate => True
  | .marketRegister | .marketSellNft _ | .marketSellSft _ | .marketBuy _ | .marketAuctionNft _ | .marketAuctionSft _ | .marketOffer => True
  | .nftInitialize | .sftInitialize | .pegErc20 | .pegErc721 _ => True
  | _ => False

/-- **C211** (partial): trades and new pools, new listings and purchases, new collections, new futurepasses and withdrawals over the
bridges are paid for whatever comes out. -/
theorem C211_first_partial {per : Nat} (hp : 0 < per) {f : Fn} (hf : PaysFirst f) {tasks : List Task} (ht : Honest tasks)
    (reads gas : Nat) :
    (call per f reads tasks gas).weight ≤ (gas - (call per f reads tasks gas).left) * per + (per - 1) := by
  have h1 : f ≠ .sftCreateToken := by rintro rfl; exact hf
  have h2 : (work f).length = 1 ∧ ∀ k ∈ work f, k = .upfront := by cases f <;> simp_all [PaysFirst, work]
  have h3 := (call_le hp h1 ht reads gas).2 (Or.inr h2.2)
  rw [h2.1, Nat.one_mul] at h3
  exact h3

/-- **C211** (partial): a call that succeeds has consumed at least what it records for its logs and reads. -/
theorem C211_logs_partial {per : Nat} {f : Fn} {tasks : List Task} {reads gas : Nat}
    (ho : (call per f reads tasks gas).outcome = .done) : (call per f reads tasks gas).left + reads + logCharge f ≤ gas := by
  have hmono : ∀ (l : List (Work × Task)) (g w : Nat), (runTasks per l g w).left ≤ g := by
    intro l
    induction l with
    | nil => exact fun g w => Nat.le_refl _
    | cons x rest ih =>
      intro g w
      rcases x with ⟨k, t⟩
      rcases hr : runTask per g t k with ⟨a, r⟩
      have hg : ∀ g2 b, r = some (g2, b) → g2 ≤ g := by
        intro g2 b e
        subst e
        cases k <;> simp only [runTask] at hr
        · split at hr
          · simp at hr
          · split at hr
            · simp at hr; omega
            · split at hr
              · simp at hr
              · rename_i hc
                simp at hr
                have := (charge_ok hc).2
                omega
        · split at hr
          · simp at hr
          · rename_i hc
            simp at hr
            have := (charge_ok hc).2
            omega
        · simp at hr; omega
      match r, hr, hg with
      | none, hr, _ => simp only [runTasks, hr]; exact Nat.zero_le _
      | some (g2, false), hr, hg => simp only [runTasks, hr]; exact hg _ _ rfl
      | some (g2, true), hr, hg => simp only [runTasks, hr]; exact Nat.le_trans (ih _ _) (hg _ _ rfl)
  unfold call at ho ⊢
  split at ho
  · exact absurd ho (by simp)
  · rename_i g hc
    obtain ⟨c1, c2⟩ := charge_ok hc
    have hm := hmono ((work f).zip tasks) g 0
    dsimp only at ho ⊢
    split at ho
    · rename_i hd
      rw [if_pos hd]
      rw [if_pos hd.1] at c1 c2
      split at ho
      · exact absurd ho (by simp)
      · rename_i g2 hc2
        obtain ⟨d1, d2⟩ := charge_ok hc2
        dsimp only
        omega
    · rename_i hd
      have hl : logsLast f = false := by
        cases hh : logsLast f with
        | false => rfl
        | true => exact absurd ⟨hh, ho⟩ hd
      rw [if_neg hd]
      rw [if_neg (by rw [hl]; simp)] at c1 c2
      omega

example : call 10 .erc20TransferFrom 100 [⟨1000, 900, true⟩, ⟨3000, 2999, true⟩] 5000 = ⟨.done, 2755, 3899⟩ := by decide +kernel
example : call 10 (.dexSwap 2) 0 [⟨1000, 1000, false⟩] 5000 = ⟨.reverted, 4900, 1000⟩ := by decide +kernel
example : call 10 .erc20Transfer 0 [⟨1000000, 1000000, true⟩] 5000 = ⟨.outOfGas, 0, 0⟩ := by decide +kernel

/-- **C211** (refuted): a call that reverts does work that is not paid for. Whatever the weight of an approval that fails, its caller
pays for the log alone, and a contract that makes the call again and again has it all done for that price, as long as the gas it keeps
would have sufficed for one. -/
theorem C211_reverted_refuted (per w reads k gas : Nat) (hg : k * (reads + 1381) + toGas per w ≤ gas) :
    again per .erc20Approve reads [⟨w, w, false⟩] k gas = (gas - k * (reads + 1381), k * w) := by
  induction k generalizing gas with
  | zero => simp [again]
  | succ k ih =>
    rw [Nat.succ_mul] at hg ⊢
    have hc : call per .erc20Approve reads [⟨w, w, false⟩] gas = ⟨.reverted, gas - (reads + 1381), w⟩ := by
      have h1 : charge gas (reads + if logsLast .erc20Approve = true then 0 else logCharge .erc20Approve) = some (gas - (reads + 1381)) := by
        rw [if_neg (by decide : ¬ logsLast .erc20Approve = true), (by decide +kernel : logCharge .erc20Approve = 1381)]
        unfold charge
        rw [if_pos (by omega)]
      have h2 : ¬ (gas - (reads + 1381) < toGas per w) := by omega
      unfold call
      rw [h1]
      simp [work, runTasks, runTask, h2, logsLast]
    simp only [again, hc]
    rw [ih (gas - (reads + 1381)) (by rw [Nat.le_sub_iff_add_le (by omega)]; omega)]
    refine Prod.ext ?_ ?_
    · show gas - (reads + 1381) - k * (reads + 1381) = _
      omega
    · show w + k * w = (k + 1) * w
      rw [Nat.succ_mul]; omega

/-- **C211** (refuted): the creation of an SFT token is not paid for. Whatever its weight, it costs the 1381 gas of its log, success or
not. -/
theorem C211_create_refuted (per reads gas : Nat) (t : Task) (hg : reads + 1381 ≤ gas) :
    call per .sftCreateToken reads [t] gas =
      ⟨if t.succeeds = true then .done else .reverted, gas - (reads + 1381), t.actual⟩ := by
  have h1 : charge gas (reads + if logsLast .sftCreateToken = true then 0 else logCharge .sftCreateToken) = some (gas - (reads + 1381)) := by
    rw [if_neg (by decide : ¬ logsLast .sftCreateToken = true), (by decide +kernel : logCharge .sftCreateToken = 1381)]
    unfold charge
    rw [if_pos hg]
  unfold call
  rw [h1]
  cases h : t.succeeds <;> simp [work, runTasks, runTask, h, logsLast]

example : again 10 .erc20Approve 0 [⟨1000000, 1000000, false⟩] 50 200000 = (130950, 50000000) := by decide +kernel

end Verif.Gas
