import Verif.EvmMoney.Safe
import Verif.Dex.Demo

/-! Concrete histories, used to show that the theorems' hypotheses are met. -/

namespace Verif.EvmMoney
open Verif.Dex (Keyed)

/-- The production exchange constants; XRP is asset 2; the pot is account 500. -/
def cfg : Cfg where
  dex := Dex.cfg0
  xrp := 2
  pot := 500

/-- Genesis of the exchange demo. -/
def g0 : St where
  dex := Dex.g0
  era := 0
  ended := 0
  dele := fun _ _ => false

theorem genesis : Genesis cfg g0 := by
  refine ⟨Dex.genesis_g0, ⟨9, by decide, fun p e => ?_⟩, rfl, rfl⟩
  exact (Dex.keyed_small (x := 9) (by norm_num)).2 p e

theorem potOk : PotOk cfg := Dex.keyed_small (by decide)

/-- The state after an operation; unchanged if it fails. -/
def after (s : St) (op : Op) : St := (step cfg s op).toOption.getD s

/-- The state after a list of operations. -/
def exec (s : St) : List Op → St
  | [] => s
  | op :: ops => exec (after s op) ops

/-- All sources are ordinary accounts. -/
def properB (op : Op) : Bool := op.sources.all (fun w => decide (w < 1000 ∧ w ≠ 500))

theorem proper_of {op : Op} (h : properB op = true) : Proper cfg op := by
  intro w hw
  have := List.all_eq_true.mp h w hw
  simp only [decide_eq_true_eq] at this
  exact ⟨Dex.keyed_small this.1, this.2⟩

/-- `G` holds after every operation. -/
def alongB (G : St → Bool) (s : St) : List Op → Bool
  | [] => G s
  | op :: ops => G s && properB op && alongB G (after s op) ops

theorem reach_of {G : St → Prop} {B : St → Bool} (hB : ∀ s, B s = true → G s) :
    ∀ (ops : List Op) {s : St}, Reach cfg G s → alongB B s ops = true → Reach cfg G (exec s ops)
  | [], s, h, _ => h
  | op :: ops, s, h, hb => by
    simp only [alongB, Bool.and_eq_true] at hb
    obtain ⟨⟨h1, h2⟩, h3⟩ := hb
    refine reach_of hB ops ?_ h3
    unfold after
    cases e : step cfg s op with
    | error x => exact h
    | ok s' =>
      refine h.step (proper_of h2) e (hB _ ?_)
      have : after s op = s' := by unfold after; rw [e]; rfl
      rw [this] at h3
      cases ops with
      | nil => exact h3
      | cons o os => simp only [alongB, Bool.and_eq_true] at h3; exact h3.1.1

theorem after_ok {s : St} {op : Op} (h : (step cfg s op).isOk = true) : step cfg s op = .ok (after s op) :=
  ok_getD (d := s) h

/-- Computable `Small`. -/
def smallB (s : St) : Bool := decide (s.dex.led.iss cfg.xrp * 2 < U128)

theorem small_of (s : St) (h : smallB s = true) : Small cfg s := by
  unfold Small; unfold smallB at h; exact of_decide_eq_true h

theorem reach_small (ops : List Op) (h : alongB smallB g0 ops = true) : Reach cfg (Small cfg) (exec g0 ops) :=
  reach_of small_of ops (.init genesis (small_of _ (by decide +kernel))) h

/-- An EVM transaction of account 8: 21000 gas at 15 000 gwei, of which half is a tip, sending 5 drops. -/
def tx1 : EvmTx where
  who := 8
  pref := none
  gas := 50000
  base := 7500000000000
  maxFee := some 20000000000000
  prio := some 7500000000000
  rate := 15000000000000
  used := 21000
  pays := [(8, 7, 5000000000000)]
  reverts := false
  author := 600

/-- The same paid for in asset 1, naming a maximal payment of 5. -/
def tx2 : EvmTx where
  who := 8
  pref := some ⟨1, some 5⟩
  gas := 50000
  base := 7500000000000
  maxFee := some 20000000000000
  prio := some 7500000000000
  rate := 15000000000000
  used := 21000
  pays := []
  reverts := false
  author := 600

/-- Account 8 signs a transaction with fee 1000, corrected to 600, paying 10 drops to account 7. -/
def st1 : Signed where
  who := 8
  fp := none
  pref := none
  fee := 1000
  corrected := 600
  body := .pays [(8, 7, 10)]

/-- Account 8 acts for futurepass 7, which pays. -/
def st2 : Signed where
  who := 8
  fp := some 7
  pref := none
  fee := 1000
  corrected := 600
  body := .pays []

/-- Account 8 pays its fee in asset 1, at most 400 of it. -/
def st3 : Signed where
  who := 8
  fp := none
  pref := some ⟨1, 400⟩
  fee := 1000
  corrected := 600
  body := .pays []

/-- Pools and balances. -/
def ops0 : List Op := Dex.demoOps.map .exchange

/-- After some fees. -/
def ops1 : List Op := ops0 ++ [.evm tx1, .signed st1, .delegate 7 8 true, .evm tx2, .eraEnd, .signed st2, .signed st3]

/-- Balances only. -/
def d0 : St := exec g0 ops0

/-- After some fees. -/
def d1 : St := exec g0 ops1

theorem reach0 : Reach cfg (Small cfg) d0 := reach_small _ (by decide +kernel)
theorem reach1 : Reach cfg (Small cfg) d1 := reach_small _ (by decide +kernel)

end Verif.EvmMoney
