import Verif.Dex.Log
import Verif.Dex.Effect
import Verif.Dex.Demo

/-!
# C236, C237: what somebody knows who follows the events of the exchange
-/

namespace Verif.Dex
open Ledger

/-! ## Specification: what somebody who reads the events knows -/

/-- The picture of a reader. A pair is given by its two assets in ascending order. -/
structure Picture where
  /-- who gets the protocol's fees -/
  feeTo : Option Acct
  /-- whether a pair can be traded -/
  trades : AssetId × AssetId → Bool
  /-- supply of a pair's liquidity token, once the pair exists -/
  shares : AssetId × AssetId → Option Nat
  /-- reserves of a pair -/
  res : AssetId × AssetId → Nat × Nat

/-- The reserves after a direct swap of `x` of `a` for `y` of `b`. -/
def swapped (r : AssetId × AssetId → Nat × Nat) (a b : AssetId) (x y : Nat) : AssetId × AssetId → Nat × Nat :=
  if a < b then upd r (a, b) ((r (a, b)).1 + x, (r (a, b)).2 - y)
  else upd r (b, a) ((r (b, a)).1 - y, (r (b, a)).2 + x)

/-- Supply of liquidity tokens after a deposit: the first one locks another thousand. -/
def grown (liq : Nat) : Option Nat → Nat
  | none => 1000 + liq
  | some n => n + liq

/-- What the reader makes of one event. A swap along a longer path does not tell what its intermediate pools gave and took. -/
def follow (p : Picture) : Ev → Picture
  | .feeTo f => { p with feeTo := f }
  | .added _ a x b y liq _ =>
    { p with
      trades := upd p.trades (a, b) true
      shares := upd p.shares (a, b) (some (grown liq (p.shares (a, b))))
      res := upd p.res (a, b) ((p.res (a, b)).1 + x, (p.res (a, b)).2 + y) }
  | .removed _ a x b y liq _ =>
    { p with
      shares := upd p.shares (a, b) ((p.shares (a, b)).map (fun n => n - liq))
      res := upd p.res (a, b) ((p.res (a, b)).1 - x, (p.res (a, b)).2 - y) }
  | .swap _ [a, b] x y _ => { p with res := swapped p.res a b x y }
  | .swap _ _ _ _ _ => p
  | .enable q => { p with trades := upd p.trades q true }
  | .disable q => { p with trades := upd p.trades q false }

/-- The picture the storage and the token ledger give. -/
def picture (s : St) : Picture where
  feeTo := s.feeTo
  trades := s.enabled
  shares := fun p => (s.lp p).map s.led.iss
  res := s.res

/-- No fee receiver appears in the events. -/
def Free (log : List Ev) : Prop := ∀ f, Ev.feeTo (some f) ∉ log

/-- All swaps in the events are direct, between two assets. -/
def Direct (log : List Ev) : Prop := ∀ w path x y d, Ev.swap w path x y d ∈ log → path.length = 2

/-- Nobody is told to pay a pool address: neither as receiver of a swap, of liquidity or of a withdrawal, nor as fee receiver,
nor with an ordinary transfer or by minting. -/
def Quiet : Op → Prop
  | .swapSupply _ _ _ _ dst _ | .swapTarget _ _ _ _ dst _ | .add _ _ _ _ _ _ _ dst _ | .remove _ _ _ _ _ _ dst _
  | .transfer _ _ dst _ | .mintAsset _ _ dst _ | .setFeeTo (some dst) => ∀ p, dst ≠ poolAddr p
  | _ => True

/-- Nothing lies at a pool address but its reserves. -/
def Clean (s : St) : Prop := ∀ p, s.res p = (s.led.bal p.1 (poolAddr p), s.led.bal p.2 (poolAddr p))

/-! ## Fee receiver and status -/

theorem follow_swap_feeTo (p : Picture) (w : Acct) (path : List AssetId) (x y : Nat) (d : Acct) :
    (follow p (.swap w path x y d)).feeTo = p.feeTo ∧ (follow p (.swap w path x y d)).trades = p.trades ∧
      (follow p (.swap w path x y d)).shares = p.shares := by
  unfold follow
  split
  all_goals first
    | exact ⟨rfl, rfl, rfl⟩
    | (rename_i h; cases h)
    | (rename_i h; cases h; exact ⟨rfl, rfl, rfl⟩)

/-- A swap that succeeds has an event, and pays and swaps the amounts the event tells. -/
theorem supply_event {c : Cfg} {s s' : St} {who dst : Acct} {i m : Nat} {path : List AssetId} {dl : Option Nat}
    (h : swapExactSupply c s who i m path dst dl = .ok s') :
    ∃ amts, event c s (.swapSupply who i m path dst dl) = some (.swap who path i (amts.getLastD 0) dst) ∧
      amts.headD 0 = i ∧ amts.length = path.length ∧ payAndSwap c s who dst amts path = .ok s' := by
  simp only [swapExactSupply, bind_ok, ensure_ok] at h
  obtain ⟨_, _, amts, ha, _, _, hp⟩ := h
  refine ⟨amts, ?_, ?_⟩
  · show supplyEv who path i dst (getAmountsOut c s i path) = _
    rw [ha]; rfl
  · simp only [getAmountsOut, bind_ok, ensure_ok] at ha
    obtain ⟨_, hl, ha⟩ := ha
    have := amountsOutLoop_shape path i amts (by rintro rfl; simp at hl) ha
    exact ⟨this.2, this.1, hp⟩

theorem target_event {c : Cfg} {s s' : St} {who dst : Acct} {o m : Nat} {path : List AssetId} {dl : Option Nat}
    (h : swapExactTarget c s who o m path dst dl = .ok s') :
    ∃ amts, event c s (.swapTarget who o m path dst dl) = some (.swap who path (amts.headD 0) o dst) ∧
      amts.getLastD 0 = o ∧ amts.length = path.length ∧ payAndSwap c s who dst amts path = .ok s' := by
  simp only [swapExactTarget, bind_ok, ensure_ok] at h
  obtain ⟨_, _, amts, ha, _, _, hp⟩ := h
  refine ⟨amts, ?_, ?_⟩
  · show targetEv who path o dst (getAmountsIn c s o path) = _
    rw [ha]; rfl
  · simp only [getAmountsIn, bind_ok, ensure_ok] at ha
    obtain ⟨_, hl, ha⟩ := ha
    have := amountsInLoop_shape path o amts (by rintro rfl; simp at hl) ha
    exact ⟨this.2, this.1, hp⟩

/-- A deposit keeps what it does not mention. -/
theorem add_frame {c : Cfg} {s s' : St} {who dst : Acct} {a b : AssetId} {da db ma mb : Nat} {dl : Option Nat} {ev : Added}
    (h : addLiquidity c s who a b da db ma mb dst dl = .ok (s', ev)) :
    s'.feeTo = s.feeTo ∧ s'.enabled = upd s.enabled (mkPair a b) true := by
  obtain ⟨_, _, sl, d0, d1, m0, m1, hsl, _, _, hen, hadd⟩ := addLiquidity_ok h
  obtain ⟨_, _, _, _, k, _, _, _, _, _, _, _, _, _, _, e⟩ := addOrdered_ok hadd
  rcases getOrCreateLp_cases hsl with ⟨_, e1⟩ | ⟨_, hc⟩
  · rw [e, e1]
    rw [e1] at hen
    refine ⟨rfl, ?_⟩
    show s.enabled = _
    funext q
    by_cases hq : q = mkPair a b
    · subst hq; rw [upd_same, hen]
    · rw [upd_ne _ _ hq]
  · obtain ⟨_, n, er⟩ := createLp_ok hc
    rw [e, er]
    exact ⟨rfl, rfl⟩

theorem remove_frame {s s' : St} {who dst : Acct} {a b : AssetId} {liq ma mb : Nat} {dl : Option Nat} {ev : Removed}
    (h : removeLiquidity s who a b liq ma mb dst dl = .ok (s', ev)) : s'.feeTo = s.feeTo ∧ s'.enabled = s.enabled ∧ s'.lp = s.lp := by
  obtain ⟨_, _, l, led, m0, m1, hl, ht, hr⟩ := removeLiquidity_ok h
  obtain ⟨led1, led2, k, _, _, _, _, _, _, _, _, hb, h1, h2, e⟩ := removeOrdered_ok hr
  rw [e]
  exact ⟨rfl, rfl, rfl⟩

theorem step_status {c : Cfg} {s s' : St} {op : Op} {p : Picture} (h1 : p.feeTo = s.feeTo) (h2 : p.trades = s.enabled)
    (hs : step c s op = .ok s') :
    ((event c s op).toList.foldl follow p).feeTo = s'.feeTo ∧ ((event c s op).toList.foldl follow p).trades = s'.enabled := by
  cases op with
  | swapSupply who i m path dst dl =>
    obtain ⟨amts, he, _, _, hp⟩ := supply_event hs
    have hf := payAndSwap_frame hp
    have hg := follow_swap_feeTo p who path i (amts.getLastD 0) dst
    rw [he, hf.1, hf.2.2.1, ← h1, ← h2]
    exact ⟨hg.1, hg.2.1⟩
  | swapTarget who o m path dst dl =>
    obtain ⟨amts, he, _, _, hp⟩ := target_event hs
    have hf := payAndSwap_frame hp
    have hg := follow_swap_feeTo p who path (amts.headD 0) o dst
    rw [he, hf.1, hf.2.2.1, ← h1, ← h2]
    exact ⟨hg.1, hg.2.1⟩
  | add who a b da db ma mb dst dl =>
    obtain ⟨ev, ha⟩ := map_fst_ok hs
    have hf := add_frame ha
    simp only [event, ha, addEv, Option.toList, List.foldl, follow]
    rw [hf.1, hf.2, h1, h2]
    exact ⟨rfl, rfl⟩
  | remove who a b liq ma mb dst dl =>
    obtain ⟨ev, ha⟩ := map_fst_ok hs
    have hf := remove_frame ha
    simp only [event, ha, removeEv, Option.toList, List.foldl, follow]
    rw [hf.1, hf.2.1, h1, h2]
    exact ⟨rfl, rfl⟩
  | setFeeTo f => cases hs; exact ⟨rfl, h2⟩
  | reenable a b =>
    simp only [step, reenable, bind_ok, ensure_ok, pure_ok] at hs
    obtain ⟨_, _, _, _, rfl⟩ := hs
    exact ⟨h1, by simp only [event, Option.toList, List.foldl, follow, h2]⟩
  | disable a b =>
    simp only [step, disable, bind_ok, ensure_ok, pure_ok] at hs
    obtain ⟨_, _, _, _, rfl⟩ := hs
    exact ⟨h1, by simp only [event, Option.toList, List.foldl, follow, h2]⟩
  | transfer who a dst amt =>
    simp only [step, directTransfer, bind_ok, pure_ok] at hs
    obtain ⟨led, _, rfl⟩ := hs
    exact ⟨h1, h2⟩
  | createAsset who =>
    simp only [step, createAsset, bind_ok, ensure_ok, pure_ok] at hs
    obtain ⟨_, _, _, _, rfl⟩ := hs
    exact ⟨h1, h2⟩
  | mintAsset who a dst amt =>
    simp only [step, mintAsset, bind_ok, ensure_ok, pure_ok] at hs
    obtain ⟨_, _, led, _, rfl⟩ := hs
    exact ⟨h1, h2⟩
  | nextBlock => cases hs; exact ⟨h1, h2⟩

/-! ## Supply of liquidity tokens -/

/-- Liquidity tokens while swaps go on: only fees are minted. -/
def Keeps (s s' : St) : Prop :=
  s'.lp = s.lp ∧ s'.feeTo = s.feeTo ∧ (∀ l, s.led.iss l ≤ s'.led.iss l) ∧ (s.feeTo = none → s'.led.iss = s.led.iss)

theorem Keeps.refl (s : St) : Keeps s s := ⟨rfl, rfl, fun _ => Nat.le_refl _, fun _ => rfl⟩

theorem Keeps.trans (s t u : St) (h1 : Keeps s t) (h2 : Keeps t u) : Keeps s u :=
  ⟨h2.1.trans h1.1, h2.2.1.trans h1.2.1, fun l => le_trans (h1.2.2.1 l) (h2.2.2.1 l),
    fun h => (h2.2.2.2 (h1.2.1.trans h)).trans (h1.2.2.2 h)⟩

theorem swapHop_keeps {c : Cfg} {s s' : St} {a b : AssetId} {out : Nat} {dst : Acct} (h : swapHop c s a b out dst = .ok s') :
    Keeps s s' := by
  have hf := swapHop_frame h
  obtain ⟨_, _, led, ht, _, hc⟩ := swapHop_ok h
  have hi := (transfer_ok ht).2.1
  obtain ⟨k, e, hk⟩ := collectFee_ok hc
  refine ⟨hf.2.1, hf.1, ?_, ?_⟩
  · intro l
    rcases hk with hk | ⟨f, l', m, _, _, hk⟩
    · rw [hk]; show _ ≤ led.iss l; rw [hi]
    · dsimp only at hk
      obtain ⟨_, h2, h3, _⟩ := mint_ok hk
      rw [← hi]
      by_cases hl : l = l'
      · subst hl; rw [h2]; omega
      · rw [h3 l hl]
  · intro hn
    rcases hk with hk | ⟨f, l', m, hfe, _, hk⟩
    · rw [hk]; exact hi
    · dsimp only at hfe; rw [hn] at hfe; cases hfe

theorem payAndSwap_keeps {c : Cfg} {s s' : St} {who dst : Acct} {amts : List Nat} {path : List AssetId}
    (h : payAndSwap c s who dst amts path = .ok s') : Keeps s s' := by
  obtain ⟨a, b, rest, led, _, ht, hs⟩ := payAndSwap_ok h
  have h1 : Keeps s { s with led := led } := by
    have := (transfer_ok ht).2.1
    exact ⟨rfl, rfl, fun l => by show _ ≤ led.iss l; rw [this], fun _ => this⟩
  exact Keeps.trans _ _ _ h1 (swapLoop_ind Keeps Keeps.refl Keeps.trans path amts _ _ (fun _ _ _ _ _ _ _ _ h => swapHop_keeps h) hs)

/-- A deposit mints the liquidity its event tells, and a thousand more if the pair is new. -/
theorem add_shares {c : Cfg} {s s' : St} {who dst : Acct} {a b : AssetId} {da db ma mb : Nat} {dl : Option Nat} {ev : Added}
    (hi : Inv s) (hw : Keyed who) (h : addLiquidity c s who a b da db ma mb dst dl = .ok (s', ev)) :
    (picture s').shares = upd (picture s).shares (mkPair a b) (some (grown ev.liq ((picture s).shares (mkPair a b)))) := by
  have hi' := hi.addLiquidity hw h
  obtain ⟨_, _, sl, d0, d1, m0, m1, hsl, _, _, hen, hadd⟩ := addLiquidity_ok h
  obtain ⟨amts, led1, led2, ll, k, _, h1, h2, _, _, _, _, hq, _, hm, e⟩ := addOrdered_ok hadd
  have hi2 : led2.iss = sl.1.led.iss := by rw [(transfer_ok h2).2.1, (transfer_ok h1).2.1]
  obtain ⟨_, hm1, hm2, _⟩ := mint_ok hm
  have elp : s'.lp = sl.1.lp := by rw [e]
  rcases getOrCreateLp_cases hsl with ⟨hl, e1⟩ | ⟨hn, hc⟩
  · rw [e1] at hi2 elp
    have hsup := hi.supply hl
    obtain ⟨hz, _⟩ | ⟨_, hll, _⟩ := liquidityFor_led hq
    · rw [hi2] at hz; unfold minLiquidity at hsup; omega
    subst hll
    funext p
    show (s'.lp p).map _ = _
    rw [elp]
    by_cases hp : p = mkPair a b
    · subst hp
      rw [upd_same, hl]
      show some _ = some (grown ev.liq ((s.lp (mkPair a b)).map _))
      rw [hl]
      show some _ = some (_ + _)
      rw [hm1, hi2]
    · rw [upd_ne _ _ hp]
      show (s.lp p).map s'.led.iss = (s.lp p).map s.led.iss
      cases hlp : s.lp p with
      | none => rfl
      | some l =>
        have hne : l ≠ sl.2 := by rintro rfl; exact hp (hi.lp_inj hlp hl)
        show some _ = some _
        rw [hm2 l hne, hi2]
  · obtain ⟨hown, n, er⟩ := createLp_ok hc
    have hled : sl.1.led = s.led := by rw [er]
    have hlp1 : sl.1.lp = upd s.lp (mkPair a b) (some sl.2) := by rw [er]
    rw [hled] at hi2
    have hz0 := hi.fresh _ hown
    obtain ⟨_, hb, _⟩ | ⟨hz, _⟩ := liquidityFor_led hq
    · obtain ⟨_, hb1, hb2, _⟩ := mint_ok hb
      funext p
      show (s'.lp p).map _ = _
      rw [elp, hlp1]
      by_cases hp : p = mkPair a b
      · subst hp
        rw [upd_same, upd_same]
        show some _ = some (grown ev.liq ((s.lp (mkPair a b)).map _))
        rw [hn]
        show some _ = some (1000 + _)
        rw [hm1, hb1, hi2, hz0]
        unfold minLiquidity
        rw [Nat.zero_add]
      · rw [upd_ne _ _ hp, upd_ne _ _ hp]
        show (s.lp p).map s'.led.iss = (s.lp p).map s.led.iss
        cases hlp : s.lp p with
        | none => rfl
        | some l =>
          have hne : l ≠ sl.2 := by
            rintro rfl
            rw [hi.lpOwn p _ hlp] at hown
            cases hown
          show some _ = some _
          rw [hm2 l hne, hb2 l hne, hi2]
    · rw [hi2] at hz; exact absurd hz0 hz

/-- A withdrawal burns the liquidity its event tells. -/
theorem remove_shares {s s' : St} {who dst : Acct} {a b : AssetId} {liq ma mb : Nat} {dl : Option Nat} {ev : Removed}
    (hi : Inv s) (h : removeLiquidity s who a b liq ma mb dst dl = .ok (s', ev)) :
    (picture s').shares = upd (picture s).shares (mkPair a b) (((picture s).shares (mkPair a b)).map (fun n => n - ev.liq)) := by
  have hlp := (remove_frame h).2.2
  obtain ⟨_, _, l, led, m0, m1, hl, ht, hr⟩ := removeLiquidity_ok h
  obtain ⟨led1, led2, k, _, _, _, _, _, _, _, _, hb, h1, h2, e⟩ := removeOrdered_ok hr
  have ht' := (transfer_ok ht).2.1
  obtain ⟨_, hb1, hb2, _⟩ := burn_ok hb
  dsimp only at hb1 hb2
  have hs' : s'.led.iss = led1.iss := by rw [(transfer_ok h2).2.1, (transfer_ok h1).2.1]
  funext p
  show (s'.lp p).map _ = _
  rw [hlp]
  by_cases hp : p = mkPair a b
  · subst hp
    rw [upd_same]
    show _ = ((s.lp (mkPair a b)).map _).map _
    rw [hl]
    show some _ = some _
    rw [hs', hb1, ht']
  · rw [upd_ne _ _ hp]
    show (s.lp p).map s'.led.iss = (s.lp p).map s.led.iss
    cases hq : s.lp p with
    | none => rfl
    | some l' =>
      have hne : l' ≠ l := by rintro rfl; exact hp (hi.lp_inj hq hl)
      show some _ = some _
      rw [hs', hb2 l' hne, ht']

/-- What a reader thinks of the shares is not too much. -/
def Below (x y : AssetId × AssetId → Option Nat) : Prop :=
  ∀ p, (x p).isSome = (y p).isSome ∧ ∀ n m, x p = some n → y p = some m → n ≤ m

theorem Below.refl (x : AssetId × AssetId → Option Nat) : Below x x :=
  fun p => ⟨rfl, fun n m h1 h2 => by rw [h1] at h2; cases h2; exact Nat.le_refl _⟩

theorem Below.trans {x y z : AssetId × AssetId → Option Nat} (h1 : Below x y) (h2 : Below y z) : Below x z := by
  intro p
  refine ⟨(h1 p).1.trans (h2 p).1, fun n m hn hm => ?_⟩
  cases hy : y p with
  | none => have := (h2 p).1; rw [hy, hm] at this; cases this
  | some k => exact le_trans ((h1 p).2 n k hn hy) ((h2 p).2 k m hy hm)

theorem Below.upd {x y : AssetId × AssetId → Option Nat} (h : Below x y) (q : AssetId × AssetId) (f : Option Nat → Option Nat)
    (hf : ∀ u v : Option Nat, u.isSome = v.isSome → (∀ n m, u = some n → v = some m → n ≤ m) →
      (f u).isSome = (f v).isSome ∧ ∀ n m, f u = some n → f v = some m → n ≤ m) :
    Below (Verif.upd x q (f (x q))) (Verif.upd y q (f (y q))) := by
  intro p
  by_cases hp : p = q
  · subst hp; rw [upd_same, upd_same]; exact hf _ _ (h p).1 (h p).2
  · rw [upd_ne _ _ hp, upd_ne _ _ hp]; exact h p

theorem Below.grown {x y : AssetId × AssetId → Option Nat} (h : Below x y) (q : AssetId × AssetId) (liq : Nat) :
    Below (Verif.upd x q (some (grown liq (x q)))) (Verif.upd y q (some (Dex.grown liq (y q)))) := by
  refine h.upd q (fun u => some (Dex.grown liq u)) ?_
  intro u v h1 h2
  refine ⟨rfl, fun n m hn hm => ?_⟩
  cases hn; cases hm
  cases u with
  | none =>
    cases v with
    | none => exact Nat.le_refl _
    | some _ => cases h1
  | some a =>
    cases v with
    | none => cases h1
    | some b => exact Nat.add_le_add_right (h2 a b rfl rfl) _

theorem Below.shrunk {x y : AssetId × AssetId → Option Nat} (h : Below x y) (q : AssetId × AssetId) (liq : Nat) :
    Below (Verif.upd x q ((x q).map (fun n => n - liq))) (Verif.upd y q ((y q).map (fun n => n - liq))) := by
  refine h.upd q (fun u => u.map (fun n => n - liq)) ?_
  intro u v h1 h2
  cases u with
  | none =>
    cases v with
    | none => exact ⟨rfl, fun n m hn => nomatch hn⟩
    | some _ => cases h1
  | some a =>
    cases v with
    | none => cases h1
    | some b =>
      refine ⟨rfl, fun n m hn hm => ?_⟩
      cases hn; cases hm
      exact Nat.sub_le_sub_right (h2 a b rfl rfl) _

/-- Swaps: the shares stay or grow. -/
theorem Keeps.below {s s' : St} (h : Keeps s s') : Below (picture s).shares (picture s').shares := by
  intro p
  show ((s.lp p).map _).isSome = ((s'.lp p).map _).isSome ∧ ∀ n m, (s.lp p).map _ = some n → (s'.lp p).map _ = some m → n ≤ m
  rw [h.1]
  cases s.lp p with
  | none => exact ⟨rfl, fun n m hn => nomatch hn⟩
  | some l =>
    refine ⟨rfl, fun n m hn hm => ?_⟩
    cases hn; cases hm
    exact h.2.2.1 l

theorem Keeps.same {s s' : St} (h : Keeps s s') (hn : s.feeTo = none) : (picture s').shares = (picture s).shares := by
  show (fun p => (s'.lp p).map s'.led.iss) = fun p => (s.lp p).map s.led.iss
  rw [h.1, h.2.2.2 hn]

/-- Shares after one operation: at least what the event makes of them, and exactly that while there is no fee receiver. -/
theorem step_shares {c : Cfg} {s s' : St} {op : Op} {p : Picture} (hi : Inv s) (hw : ∀ w, op.signer = some w → Keyed w)
    (hb : Below p.shares (picture s).shares) (hs : step c s op = .ok s') :
    Below ((event c s op).toList.foldl follow p).shares (picture s').shares ∧
    (s.feeTo = none → p.shares = (picture s).shares →
      ((event c s op).toList.foldl follow p).shares = (picture s').shares) := by
  have same : (picture s').shares = (picture s).shares → ((event c s op).toList.foldl follow p).shares = p.shares →
      Below ((event c s op).toList.foldl follow p).shares (picture s').shares ∧
      (s.feeTo = none → p.shares = (picture s).shares →
        ((event c s op).toList.foldl follow p).shares = (picture s').shares) := by
    intro e1 e2
    rw [e1, e2]
    exact ⟨hb, fun _ h => h⟩
  cases op with
  | swapSupply who i m path dst dl =>
    obtain ⟨amts, he, _, _, hp⟩ := supply_event hs
    have hk := payAndSwap_keeps hp
    have hg := (follow_swap_feeTo p who path i (amts.getLastD 0) dst).2.2
    rw [he]
    show Below (follow p _).shares _ ∧ (_ → _ → (follow p _).shares = _)
    rw [hg]
    exact ⟨hb.trans hk.below, fun hn h => by rw [h, hk.same hn]⟩
  | swapTarget who o m path dst dl =>
    obtain ⟨amts, he, _, _, hp⟩ := target_event hs
    have hk := payAndSwap_keeps hp
    have hg := (follow_swap_feeTo p who path (amts.headD 0) o dst).2.2
    rw [he]
    show Below (follow p _).shares _ ∧ (_ → _ → (follow p _).shares = _)
    rw [hg]
    exact ⟨hb.trans hk.below, fun hn h => by rw [h, hk.same hn]⟩
  | add who a b da db ma mb dst dl =>
    obtain ⟨ev, ha⟩ := map_fst_ok hs
    rw [add_shares hi (hw who rfl) ha]
    simp only [event, ha, addEv, Option.toList, List.foldl, follow]
    refine ⟨hb.grown _ _, fun _ h => by rw [h]⟩
  | remove who a b liq ma mb dst dl =>
    obtain ⟨ev, ha⟩ := map_fst_ok hs
    rw [remove_shares hi ha]
    simp only [event, ha, removeEv, Option.toList, List.foldl, follow]
    refine ⟨hb.shrunk _ _, fun _ h => by rw [h]⟩
  | setFeeTo f => cases hs; exact same rfl rfl
  | reenable a b =>
    simp only [step, reenable, bind_ok, ensure_ok, pure_ok] at hs
    obtain ⟨_, _, _, _, rfl⟩ := hs
    exact same rfl rfl
  | disable a b =>
    simp only [step, disable, bind_ok, ensure_ok, pure_ok] at hs
    obtain ⟨_, _, _, _, rfl⟩ := hs
    exact same rfl rfl
  | transfer who a dst amt =>
    simp only [step, directTransfer, bind_ok, pure_ok] at hs
    obtain ⟨led, ht, rfl⟩ := hs
    refine same ?_ rfl
    show (fun p => (s.lp p).map led.iss) = _
    rw [(transfer_ok ht).2.1]; rfl
  | createAsset who =>
    simp only [step, createAsset, bind_ok, ensure_ok, pure_ok] at hs
    obtain ⟨_, _, _, _, rfl⟩ := hs
    exact same rfl rfl
  | mintAsset who a dst amt =>
    simp only [step, mintAsset, bind_ok, ensure_ok, pure_ok] at hs
    obtain ⟨_, ho, led, ht, rfl⟩ := hs
    refine same ?_ rfl
    funext q
    show (s.lp q).map led.iss = (s.lp q).map s.led.iss
    cases hq : s.lp q with
    | none => rfl
    | some l =>
      have hne : l ≠ a := by
        rintro rfl
        rw [hi.lpOwn q l hq] at ho
        cases ho
        exact (hw _ rfl).2 q rfl
      show some _ = some _
      rw [(mint_ok ht).2.2.1 l hne]
  | nextBlock => cases hs; exact same rfl rfl

/-! ## Reserves -/

theorem transfer_kept {L L' : Ledger} {a : AssetId} {x y z : Acct} {m : Nat} (h : L.transfer a x y m = .ok L')
    (hx : z ≠ x) (hy : z ≠ y) (b : AssetId) : L'.bal b z = L.bal b z := by
  obtain ⟨_, _, h2, h3⟩ := transfer_ok h
  by_cases hb : b = a
  · subst hb
    have := h3 z
    rw [if_neg hx, if_neg hy] at this
    exact this
  · rw [h2 b hb]

theorem mint_kept {L L' : Ledger} {a : AssetId} {y z : Acct} {m : Nat} (h : L.mint a y m = .ok L')
    (hy : z ≠ y) (b : AssetId) : L'.bal b z = L.bal b z := by
  obtain ⟨_, _, _, h2, h3⟩ := mint_ok h
  by_cases hb : b = a
  · subst hb
    have := h3 z
    rw [if_neg hy] at this
    exact this
  · rw [h2 b hb]

theorem burn_kept {L L' : Ledger} {a : AssetId} {y z : Acct} {m : Nat} (h : L.burn a y m = .ok L')
    (hy : z ≠ y) (b : AssetId) : L'.bal b z = L.bal b z := by
  obtain ⟨_, _, _, h2, h3⟩ := burn_ok h
  by_cases hb : b = a
  · subst hb
    have := h3 z
    rw [if_neg hy] at this
    exact this
  · rw [h2 b hb]

theorem pool_ne {p q : Pair} (h : q ≠ p) : poolAddr q ≠ poolAddr p := fun e => h (poolAddr_inj e)

/-- Nothing lies at pool addresses but reserves, and the fee receiver is not a pool. -/
def Tidy (s : St) : Prop := Clean s ∧ ∀ f, s.feeTo = some f → ∀ p, f ≠ poolAddr p

/-- A deposit adds what its event tells. -/
theorem add_res {c : Cfg} {s s' : St} {who dst : Acct} {a b : AssetId} {da db ma mb : Nat} {dl : Option Nat} {ev : Added}
    (h : addLiquidity c s who a b da db ma mb dst dl = .ok (s', ev)) :
    s'.res = upd s.res (mkPair a b) ((s.res (mkPair a b)).1 + ev.amt0, (s.res (mkPair a b)).2 + ev.amt1) := by
  obtain ⟨_, _, sl, d0, d1, m0, m1, hsl, _, _, hen, hadd⟩ := addLiquidity_ok h
  obtain ⟨amts, led1, led2, ll, k, _, h1, h2, hb0, hb1, e0, e1, hq, _, hm, e⟩ := addOrdered_ok hadd
  have hres : sl.1.res = s.res := by
    rcases getOrCreateLp_cases hsl with ⟨_, e1⟩ | ⟨_, hc⟩
    · rw [e1]
    · obtain ⟨_, n, er⟩ := createLp_ok hc
      rw [er]
  rw [hres] at hb0 hb1 e0 e1
  rw [e, e0, e1, Nat.add_sub_cancel' hb0, Nat.add_sub_cancel' hb1]
  dsimp only
  rw [hres]

theorem add_tidy {c : Cfg} {s s' : St} {who dst : Acct} {a b : AssetId} {da db ma mb : Nat} {dl : Option Nat} {ev : Added}
    (ht : Tidy s) (hw : Keyed who) (hd : ∀ p, dst ≠ poolAddr p)
    (h : addLiquidity c s who a b da db ma mb dst dl = .ok (s', ev)) : Tidy s' := by
  have hf := (add_frame h).1
  refine ⟨?_, by rw [hf]; exact ht.2⟩
  obtain ⟨_, _, sl, d0, d1, m0, m1, hsl, _, _, hen, hadd⟩ := addLiquidity_ok h
  obtain ⟨amts, led1, led2, ll, k, _, h1, h2, _, _, _, _, hq, _, hm, e⟩ := addOrdered_ok hadd
  have hres : sl.1.res = s.res ∧ sl.1.led = s.led := by
    rcases getOrCreateLp_cases hsl with ⟨_, e1⟩ | ⟨_, hc⟩
    · rw [e1]; exact ⟨rfl, rfl⟩
    · obtain ⟨_, n, er⟩ := createLp_ok hc
      rw [er]; exact ⟨rfl, rfl⟩
  have hll : ∀ x q, ll.bal x (poolAddr q) = led2.bal x (poolAddr q) := by
    intro x q
    obtain ⟨_, hb, _⟩ | ⟨_, e, _⟩ := liquidityFor_led hq
    · exact mint_kept hb (burn_ne_pool q).symm x
    · rw [e]
  have hall : ∀ x q, s'.led.bal x (poolAddr q) = led2.bal x (poolAddr q) :=
    fun x q => (mint_kept hm (hd q).symm x).trans (hll x q)
  intro q
  rw [hall, hall, e]
  dsimp only
  by_cases hqp : q = mkPair a b
  · subst hqp; rw [upd_same]
  · rw [upd_ne _ _ hqp]
    rw [transfer_kept h2 (hw.2 q).symm (pool_ne hqp), transfer_kept h2 (hw.2 q).symm (pool_ne hqp),
      transfer_kept h1 (hw.2 q).symm (pool_ne hqp), transfer_kept h1 (hw.2 q).symm (pool_ne hqp), hres.1, hres.2]
    exact ht.1 q

/-- A withdrawal takes at most what its event tells, and exactly that if nothing else lies in the pool. -/
theorem remove_res {s s' : St} {who dst : Acct} {a b : AssetId} {liq ma mb : Nat} {dl : Option Nat} {ev : Removed}
    (hi : Inv s) (hw : Keyed who) (h : removeLiquidity s who a b liq ma mb dst dl = .ok (s', ev)) :
    ∃ r0 r1, s'.res = upd s.res (mkPair a b) (r0, r1) ∧
      (s.res (mkPair a b)).1 - ev.amt0 ≤ r0 ∧ (s.res (mkPair a b)).2 - ev.amt1 ≤ r1 ∧
      (Tidy s → (∀ p, dst ≠ poolAddr p) → r0 = (s.res (mkPair a b)).1 - ev.amt0 ∧ r1 = (s.res (mkPair a b)).2 - ev.amt1 ∧
        Tidy s') := by
  have hf := (remove_frame h).1
  obtain ⟨_, _, l, led, m0, m1, hl, ht, hr⟩ := removeLiquidity_ok h
  obtain ⟨led1, led2, k, _, _, _, _, _, _, _, _, hb, h1, h2, e⟩ := removeOrdered_ok hr
  dsimp only at hb h1 h2 e
  obtain ⟨hlt, hl1, hl2⟩ := hi.lpOrd _ _ hl
  have hbk := hi.backed (mkPair a b)
  generalize hp : mkPair a b = p at *
  have hne : p.1 ≠ p.2 := ne_of_lt hlt
  -- the two balances before the payments
  have b0 : led1.bal p.1 = s.led.bal p.1 := by
    rw [(burn_ok hb).2.2.2.1 _ hl1.symm, (transfer_ok ht).2.2.1 _ hl1.symm]
  have b1 : led1.bal p.2 = s.led.bal p.2 := by
    rw [(burn_ok hb).2.2.2.1 _ hl2.symm, (transfer_ok ht).2.2.1 _ hl2.symm]
  have f0 : s'.led.bal p.1 = led2.bal p.1 := (transfer_ok h2).2.2.1 _ hne
  have f1 : led2.bal p.2 = led1.bal p.2 := (transfer_ok h1).2.2.1 _ hne.symm
  have g0 := (transfer_ok h1).2.2.2 (poolAddr p)
  have g1 := (transfer_ok h2).2.2.2 (poolAddr p)
  rw [if_pos rfl] at g0 g1
  rw [f1, b1] at g1
  rw [b0, ← f0] at g0
  refine ⟨s'.led.bal p.1 (poolAddr p), s'.led.bal p.2 (poolAddr p), by rw [e], by omega, by omega, ?_⟩
  intro hti hd
  rw [if_neg (hd p).symm] at g0 g1
  have hc := hti.1 p
  rw [hc]
  refine ⟨by dsimp only; omega, by dsimp only; omega, ?_, by rw [hf]; exact hti.2⟩
  intro q
  by_cases hq : q = p
  · subst hq
    rw [e]
    dsimp only
    rw [upd_same]
  · have hall : ∀ x, s'.led.bal x (poolAddr q) = s.led.bal x (poolAddr q) := by
      intro x
      rw [transfer_kept h2 (pool_ne hq) (hd q).symm, transfer_kept h1 (pool_ne hq) (hd q).symm,
        burn_kept hb (pool_ne hq), transfer_kept ht (hw.2 q).symm (pool_ne hq)]
    rw [hall, hall, e]
    dsimp only
    rw [upd_ne _ _ hq]
    exact hti.1 q

/-- Componentwise comparison of reserves. -/
def AtMost (x y : AssetId × AssetId → Nat × Nat) : Prop := ∀ p, (x p).1 ≤ (y p).1 ∧ (x p).2 ≤ (y p).2

theorem AtMost.upd {x y : AssetId × AssetId → Nat × Nat} (h : AtMost x y) (q : AssetId × AssetId) {a b : Nat × Nat}
    (h1 : a.1 ≤ b.1) (h2 : a.2 ≤ b.2) : AtMost (Verif.upd x q a) (Verif.upd y q b) := by
  intro p
  by_cases hp : p = q
  · subst hp; rw [upd_same, upd_same]; exact ⟨h1, h2⟩
  · rw [upd_ne _ _ hp, upd_ne _ _ hp]; exact h p

theorem AtMost.swapped {x y : AssetId × AssetId → Nat × Nat} (h : AtMost x y) (a b : AssetId) (i o : Nat) :
    AtMost (swapped x a b i o) (Dex.swapped y a b i o) := by
  unfold Dex.swapped
  split
  · exact h.upd _ (Nat.add_le_add_right (h _).1 _) (Nat.sub_le_sub_right (h _).2 _)
  · exact h.upd _ (Nat.sub_le_sub_right (h _).1 _) (Nat.add_le_add_right (h _).2 _)

theorem AtMost.trans {x y z : AssetId × AssetId → Nat × Nat} (h1 : AtMost x y) (h2 : AtMost y z) : AtMost x z :=
  fun p => ⟨le_trans (h1 p).1 (h2 p).1, le_trans (h1 p).2 (h2 p).2⟩

/-- A direct swap: the pool gets at least what the event tells, and exactly that if nothing else lies in the pool. -/
theorem swap_res {c : Cfg} {s s' : St} {who dst : Acct} {a b : AssetId} {amts : List Nat} (hi : Inv s) (hw : Keyed who)
    (hl : amts.length = 2) (h : payAndSwap c s who dst amts [a, b] = .ok s') :
    AtMost (swapped s.res a b (amts.headD 0) (amts.getLastD 0)) s'.res ∧
      (Tidy s → (∀ p, dst ≠ poolAddr p) → s'.res = swapped s.res a b (amts.headD 0) (amts.getLastD 0) ∧ Tidy s') := by
  obtain ⟨x, y, rfl⟩ : ∃ x y, amts = [x, y] := by
    match amts, hl with
    | [x, y], _ => exact ⟨x, y, rfl⟩
  have hfr := (payAndSwap_frame h).1
  simp only [payAndSwap, swapLoop, bind_ok] at h
  obtain ⟨led, ht, s1, hh, h⟩ := h
  cases h
  obtain ⟨hab, _, led2, ht2, _, hc⟩ := swapHop_ok hh
  obtain ⟨k, e, hk⟩ := collectFee_ok hc
  dsimp only at ht2 hk e
  change s.led.transfer a who (poolAddr (mkPair a b)) x = .ok led at ht
  have ga := (transfer_ok ht).2.2.2 (poolAddr (mkPair a b))
  rw [if_neg (hw.2 _).symm, if_pos rfl] at ga
  have gb := (transfer_ok ht2).2.2.2 (poolAddr (mkPair a b))
  rw [if_pos rfl] at gb
  have ea : led2.bal a = led.bal a := (transfer_ok ht2).2.2.1 a hab
  have eb : led.bal b = s.led.bal b := (transfer_ok ht).2.2.1 b hab.symm
  rw [eb] at gb
  rw [← ea] at ga
  have hbk := hi.backed (mkPair a b)
  have hres : s'.res = upd s.res (mkPair a b)
      (led2.bal (mkPair a b).1 (poolAddr (mkPair a b)), led2.bal (mkPair a b).2 (poolAddr (mkPair a b))) := by rw [e]
  show AtMost (swapped s.res a b x y) _ ∧ (_ → _ → _ = swapped s.res a b x y ∧ _)
  have hAM : AtMost s.res s.res := fun _ => ⟨Nat.le_refl _, Nat.le_refl _⟩
  refine ⟨?_, fun hti hd => ⟨?_, ?_, by rw [hfr]; exact hti.2⟩⟩
  · rw [hres]
    unfold swapped
    rcases mkPair_cases a b hab with ⟨em, hlt⟩ | ⟨em, hlt⟩
    · rw [if_pos hlt]
      rw [em] at ga gb hbk ⊢
      dsimp only at ga gb hbk ⊢
      exact hAM.upd _ (by dsimp only; omega) (by dsimp only; omega)
    · rw [if_neg (not_lt.mpr (le_of_lt hlt))]
      rw [em] at ga gb hbk ⊢
      dsimp only at ga gb hbk ⊢
      exact hAM.upd _ (by dsimp only; omega) (by dsimp only; omega)
  · rw [hres]
    unfold swapped
    have hcl := hti.1 (mkPair a b)
    rw [if_neg (hd _).symm, Nat.add_zero] at gb
    rw [Nat.add_zero] at ga
    rcases mkPair_cases a b hab with ⟨em, hlt⟩ | ⟨em, hlt⟩
    · rw [if_pos hlt]
      rw [em] at ga gb hcl ⊢
      dsimp only at ga gb hcl ⊢
      rw [hcl]
      dsimp only
      rw [← ga, ← Nat.eq_sub_of_add_eq gb]
    · rw [if_neg (not_lt.mpr (le_of_lt hlt))]
      rw [em] at ga gb hcl ⊢
      dsimp only at ga gb hcl ⊢
      rw [hcl]
      dsimp only
      rw [← ga, ← Nat.eq_sub_of_add_eq gb]
  · have hall : ∀ z q, s'.led.bal z (poolAddr q) = led2.bal z (poolAddr q) := by
      intro z q
      rcases hk with hk | ⟨f, l, m, hfe, _, hk⟩
      · rw [hk]
      · exact mint_kept hk (hti.2 f hfe q).symm z
    intro q
    rw [hall, hall, hres]
    by_cases hq : q = mkPair a b
    · subst hq; rw [upd_same]
    · rw [upd_ne _ _ hq, transfer_kept ht2 (pool_ne hq) (hd q).symm, transfer_kept ht2 (pool_ne hq) (hd q).symm,
        transfer_kept ht (hw.2 q).symm (pool_ne hq), transfer_kept ht (hw.2 q).symm (pool_ne hq)]
      exact hti.1 q

/-- Reserves after one operation. -/
theorem step_res {c : Cfg} {s s' : St} {op : Op} {p : Picture} (hi : Inv s) (hw : ∀ w, op.signer = some w → Keyed w)
    (hdir : Direct (event c s op).toList) (hb : AtMost p.res s.res) (hs : step c s op = .ok s') :
    AtMost ((event c s op).toList.foldl follow p).res s'.res ∧
    (Quiet op → Tidy s → p.res = s.res → ((event c s op).toList.foldl follow p).res = s'.res ∧ Tidy s') := by
  have same : s'.res = s.res → ((event c s op).toList.foldl follow p).res = p.res → (Quiet op → Tidy s → Tidy s') →
      AtMost ((event c s op).toList.foldl follow p).res s'.res ∧
      (Quiet op → Tidy s → p.res = s.res → ((event c s op).toList.foldl follow p).res = s'.res ∧ Tidy s') := by
    intro e1 e2 e3
    rw [e1, e2]
    exact ⟨hb, fun h1 h2 h => ⟨h, e3 h1 h2⟩⟩
  have swaps : ∀ {who dst : Acct} {path : List AssetId} {amts : List Nat} {x y : Nat}, Keyed who →
      event c s op = some (.swap who path x y dst) → amts.headD 0 = x → amts.getLastD 0 = y → amts.length = path.length →
      (Quiet op → ∀ p, dst ≠ poolAddr p) → payAndSwap c s who dst amts path = .ok s' →
      AtMost ((event c s op).toList.foldl follow p).res s'.res ∧
      (Quiet op → Tidy s → p.res = s.res → ((event c s op).toList.foldl follow p).res = s'.res ∧ Tidy s') := by
    intro who dst path amts x y hwho he hx hy hl hq hp
    rw [he] at hdir ⊢
    have hlen := hdir who path x y dst (by simp)
    obtain ⟨a, b, rfl⟩ : ∃ a b, path = [a, b] := by
      match path, hlen with
      | [a, b], _ => exact ⟨a, b, rfl⟩
    obtain ⟨h1, h2⟩ := swap_res hi hwho (hl.trans hlen) hp
    rw [hx, hy] at h1 h2
    show AtMost (swapped p.res a b x y) _ ∧ (_ → _ → _ → swapped p.res a b x y = _ ∧ _)
    refine ⟨(hb.swapped a b x y).trans h1, fun hqu hti e => ?_⟩
    obtain ⟨h3, h4⟩ := h2 hti (hq hqu)
    exact ⟨by rw [h3, e], h4⟩
  cases op with
  | swapSupply who i m path dst dl =>
    obtain ⟨amts, he, h1, h2, hp⟩ := supply_event hs
    exact swaps (hw who rfl) he h1 rfl h2 (fun h => h) hp
  | swapTarget who o m path dst dl =>
    obtain ⟨amts, he, h1, h2, hp⟩ := target_event hs
    exact swaps (hw who rfl) he rfl h1 h2 (fun h => h) hp
  | add who a b da db ma mb dst dl =>
    obtain ⟨ev, ha⟩ := map_fst_ok hs
    rw [add_res ha]
    simp only [event, ha, addEv, Option.toList, List.foldl, follow]
    refine ⟨hb.upd _ (Nat.add_le_add_right (hb _).1 _) (Nat.add_le_add_right (hb _).2 _), fun hq hti e => ⟨by rw [e], ?_⟩⟩
    exact add_tidy hti (hw who rfl) hq ha
  | remove who a b liq ma mb dst dl =>
    obtain ⟨ev, ha⟩ := map_fst_ok hs
    obtain ⟨r0, r1, e, h0, h1, h2⟩ := remove_res hi (hw who rfl) ha
    rw [e]
    simp only [event, ha, removeEv, Option.toList, List.foldl, follow]
    refine ⟨hb.upd _ (le_trans (Nat.sub_le_sub_right (hb _).1 _) h0) (le_trans (Nat.sub_le_sub_right (hb _).2 _) h1),
      fun hq hti e => ?_⟩
    obtain ⟨e0, e1, h3⟩ := h2 hti hq
    exact ⟨by rw [e, e0, e1], h3⟩
  | setFeeTo f =>
    cases hs
    refine same rfl rfl fun hq hti => ⟨hti.1, fun g hg => ?_⟩
    have hg : f = some g := hg
    subst hg
    exact hq
  | reenable a b =>
    simp only [step, reenable, bind_ok, ensure_ok, pure_ok] at hs
    obtain ⟨_, _, _, _, rfl⟩ := hs
    exact same rfl rfl fun _ h => h
  | disable a b =>
    simp only [step, disable, bind_ok, ensure_ok, pure_ok] at hs
    obtain ⟨_, _, _, _, rfl⟩ := hs
    exact same rfl rfl fun _ h => h
  | transfer who a dst amt =>
    simp only [step, directTransfer, bind_ok, pure_ok] at hs
    obtain ⟨led, ht, rfl⟩ := hs
    refine same rfl rfl fun hq hti => ⟨fun q => ?_, hti.2⟩
    show s.res q = (led.bal _ _, led.bal _ _)
    rw [transfer_kept ht ((hw who rfl).2 q).symm (hq q).symm, transfer_kept ht ((hw who rfl).2 q).symm (hq q).symm]
    exact hti.1 q
  | createAsset who =>
    simp only [step, createAsset, bind_ok, ensure_ok, pure_ok] at hs
    obtain ⟨_, _, _, _, rfl⟩ := hs
    exact same rfl rfl fun _ h => h
  | mintAsset who a dst amt =>
    simp only [step, mintAsset, bind_ok, ensure_ok, pure_ok] at hs
    obtain ⟨_, ho, led, ht, rfl⟩ := hs
    refine same rfl rfl fun hq hti => ⟨fun q => ?_, hti.2⟩
    show s.res q = (led.bal _ _, led.bal _ _)
    rw [mint_kept ht (hq q).symm, mint_kept ht (hq q).symm]
    exact hti.1 q
  | nextBlock => cases hs; exact same rfl rfl fun _ h => h

/-! ## The theorems -/

theorem Told.inv {c : Cfg} {P : Op → Prop} {s t : St} {log : List Ev} (h0 : Inv s) (h : Told c P s t log) : Inv t := by
  induction h with
  | refl => exact h0
  | step _ _ hw hs ih => exact ih.step hw hs

/-- C236: somebody who knows the state of the exchange at one point and reads its events from there on knows at every later
point who gets the protocol's fees and which pairs can be traded. -/
theorem C236 {c : Cfg} {P : Op → Prop} {s t : St} {log : List Ev} (h : Told c P s t log) :
    (log.foldl follow (picture s)).feeTo = t.feeTo ∧ (log.foldl follow (picture s)).trades = t.enabled := by
  induction h with
  | refl => exact ⟨rfl, rfl⟩
  | step _ _ _ hs ih =>
    rw [List.foldl_append]
    exact step_status ih.1 ih.2 hs

/-- C236: as long as no fee receiver is set, the reader also knows which pairs exist and the exact supply of their liquidity
tokens. -/
theorem C236_shares {c : Cfg} {P : Op → Prop} {s t : St} {log : List Ev} (h0 : Reach c s) (h : Told c P s t log)
    (hn : s.feeTo = none) (hf : Free log) : (log.foldl follow (picture s)).shares = fun p => (t.lp p).map t.led.iss := by
  have key : t.feeTo = none ∧ (log.foldl follow (picture s)).shares = (picture t).shares := by
    induction h with
    | refl => exact ⟨hn, rfl⟩
    | @step t u log op ht _ hw hs ih =>
      have hf' : Free log := fun f hm => hf f (List.mem_append_left _ hm)
      obtain ⟨h1, h2⟩ := ih hf'
      have hit := ht.inv h0.inv
      rw [List.foldl_append]
      refine ⟨?_, (step_shares hit hw (by rw [h2]; exact Below.refl _) hs).2 h1 h2⟩
      have hst := (step_status (p := picture t) rfl rfl hs).1
      rw [← hst]
      cases op with
      | setFeeTo f =>
        cases f with
        | none => rfl
        | some f => exact absurd (List.mem_append_right _ (by simp [event])) (hf f)
      | swapSupply who i m path dst dl =>
        obtain ⟨amts, he, _⟩ := supply_event hs
        rw [he]
        exact (follow_swap_feeTo _ _ _ _ _ _).1.trans h1
      | swapTarget who o m path dst dl =>
        obtain ⟨amts, he, _⟩ := target_event hs
        rw [he]
        exact (follow_swap_feeTo _ _ _ _ _ _).1.trans h1
      | add who a b da db ma mb dst dl =>
        obtain ⟨ev, ha⟩ := map_fst_ok hs
        simp only [event, ha, addEv, Option.toList, List.foldl, follow]
        exact h1
      | remove who a b liq ma mb dst dl =>
        obtain ⟨ev, ha⟩ := map_fst_ok hs
        simp only [event, ha, removeEv, Option.toList, List.foldl, follow]
        exact h1
      | _ => exact h1
  exact key.2

/-- C236: with a fee receiver the reader still knows which pairs exist, and never takes the supply of their liquidity tokens to
be larger than it is. -/
theorem C236_atmost {c : Cfg} {P : Op → Prop} {s t : St} {log : List Ev} (h0 : Reach c s) (h : Told c P s t log)
    (p : AssetId × AssetId) :
    ((log.foldl follow (picture s)).shares p).isSome = (t.lp p).isSome ∧
    ∀ n l, (log.foldl follow (picture s)).shares p = some n → t.lp p = some l → n ≤ t.led.iss l := by
  have key : Below (log.foldl follow (picture s)).shares (picture t).shares := by
    induction h with
    | refl => exact Below.refl _
    | step ht _ hw hs ih =>
      rw [List.foldl_append]
      exact (step_shares (ht.inv h0.inv) hw ih hs).1
  obtain ⟨h1, h2⟩ := key p
  change _ = ((t.lp p).map _).isSome at h1
  change ∀ n m, _ → (t.lp p).map _ = some m → _ at h2
  refine ⟨by rw [h1]; cases t.lp p <;> rfl, fun n l hn hl => h2 n _ hn ?_⟩
  rw [hl]; rfl

/-- C237, the part that holds: as long as all swaps are direct, the reserves a reader works out from the events are never larger
than the true ones. If moreover nobody pays a pool address, and nothing but reserves lay there at the start, they are exactly
the true ones. -/
theorem C237_partial {c : Cfg} {P : Op → Prop} {s t : St} {log : List Ev} (h0 : Reach c s) (h : Told c P s t log)
    (hd : Direct log) :
    (∀ p, ((log.foldl follow (picture s)).res p).1 ≤ (t.res p).1 ∧ ((log.foldl follow (picture s)).res p).2 ≤ (t.res p).2) ∧
    ((∀ op, P op → Quiet op) → Clean s → (∀ f, s.feeTo = some f → ∀ p, f ≠ poolAddr p) →
      (log.foldl follow (picture s)).res = t.res) := by
  have key : AtMost (log.foldl follow (picture s)).res t.res ∧ ((∀ op, P op → Quiet op) → Tidy s →
      (log.foldl follow (picture s)).res = t.res ∧ Tidy t) := by
    induction h with
    | refl => exact ⟨fun _ => ⟨Nat.le_refl _, Nat.le_refl _⟩, fun _ h => ⟨rfl, h⟩⟩
    | @step t u log op ht hp hw hs ih =>
      obtain ⟨h1, h2⟩ := ih (fun w path x y d hm => hd w path x y d (List.mem_append_left _ hm))
      rw [List.foldl_append]
      obtain ⟨h3, h4⟩ := step_res (ht.inv h0.inv) hw (fun w path x y d hm => hd w path x y d (List.mem_append_right _ hm)) h1 hs
      refine ⟨h3, fun hq hti => ?_⟩
      obtain ⟨h5, h6⟩ := h2 hq hti
      exact h4 (hq op hp) h6 h5
  exact ⟨key.1, fun hq hc hf => (key.2 hq ⟨hc, hf⟩).1⟩

/-! ## Examples and counterexamples -/

theorem Told.append {c : Cfg} {P : Op → Prop} : ∀ (ops : List Op) {s t : St} {log : List Ev}, Told c P s t log →
    (∀ op ∈ ops, P op) → (∀ op ∈ ops, ∀ w, op.signer = some w → Keyed w) →
    Told c P s (runLog c ops t).1 (log ++ (runLog c ops t).2)
  | [], s, t, log, h, _, _ => by rw [show (runLog c [] t).2 = [] from rfl, List.append_nil]; exact h
  | op :: ops, s, t, log, h, hp, hk => by
    unfold runLog
    cases hc : Dex.step c t op with
    | error e => exact Told.append ops h (fun o ho => hp o (by simp [ho])) (fun o ho => hk o (by simp [ho]))
    | ok u =>
      have := Told.append ops (h.step (hp op (by simp)) (hk op (by simp)) hc) (fun o ho => hp o (by simp [ho]))
        (fun o ho => hk o (by simp [ho]))
      rw [List.append_assoc] at this
      exact this

theorem told_run {P : Op → Prop} (ops : List Op) (hp : ∀ op ∈ ops, P op) (hk : ∀ op ∈ ops, ∀ w, op.signer = some w → w < 1000) :
    Told cfg0 P g0 (runLog cfg0 ops g0).1 (runLog cfg0 ops g0).2 := by
  have := Told.append (c := cfg0) (P := P) ops (s := g0) (t := g0) (log := []) .refl hp
    (fun op ho w hw => keyed_small (hk op ho w hw))
  exact this

/-- Two pools, of 10000 and 40000 of assets 1 and 2 and of 40000 and 10000 of assets 2 and 3. -/
def storyOps : List Op :=
  [.mintAsset 9 1 7 1000000, .mintAsset 9 2 7 1000000, .mintAsset 9 3 7 1000000, .mintAsset 9 1 8 1000,
   .add 7 1 2 10000 40000 0 0 7 none, .add 7 3 2 10000 40000 0 0 7 none]

/-- A history of direct swaps, deposits and withdrawals. -/
def storyDirect : List Op :=
  storyOps ++ [.swapSupply 8 100 0 [1, 2] 8 none, .swapTarget 8 50 1000 [2, 1] 8 none, .add 7 2 1 5000 1000 0 0 6 none,
    .remove 7 1 2 2000 0 0 5 none, .disable 2 3]

/-- Non-vacuity: its events, what a reader makes of them, and the state. -/
example : (runLog cfg0 storyDirect g0).2 =
      [.added 7 1 10000 2 40000 19000 7, .added 7 2 40000 3 10000 19000 7, .swap 8 [1, 2] 100 394 8, .swap 8 [2, 1] 198 50 8,
       .added 7 1 1000 2 3960 1989 6, .removed 7 1 1005 2 3980 2000 5, .disable (2, 3)] ∧
    ((runLog cfg0 storyDirect g0).2.foldl follow (picture g0)).res (1, 2) = (10045, 39784) ∧
    (runLog cfg0 storyDirect g0).1.res (1, 2) = (10045, 39784) ∧
    ((runLog cfg0 storyDirect g0).2.foldl follow (picture g0)).shares (1, 2) = some 19989 ∧
    ((runLog cfg0 storyDirect g0).2.foldl follow (picture g0)).trades (2, 3) = false := by decide +kernel

/-- Receivers with a small number. -/
def smallDst : Op → Bool
  | .swapSupply _ _ _ _ dst _ | .swapTarget _ _ _ _ dst _ | .add _ _ _ _ _ _ _ dst _ | .remove _ _ _ _ _ _ dst _
  | .transfer _ _ dst _ | .mintAsset _ _ dst _ | .setFeeTo (some dst) => decide (dst < 1000)
  | _ => true

theorem quiet_small {op : Op} (h : smallDst op = true) : Quiet op := by
  unfold smallDst at h
  unfold Quiet
  split at h <;> first | exact (keyed_small (of_decide_eq_true h)).2 | trivial

/-- The hypotheses of the theorems are met by that history. -/
example : Reach cfg0 g0 ∧ Told cfg0 Quiet g0 (runLog cfg0 storyDirect g0).1 (runLog cfg0 storyDirect g0).2 ∧ g0.feeTo = none ∧
    Clean g0 := by
  refine ⟨.init genesis_g0, told_run storyDirect ?_ (by decide +kernel), rfl, fun _ => rfl⟩
  intro op ho
  refine quiet_small ?_
  revert op
  decide +kernel

example : Free (runLog cfg0 storyDirect g0).2 ∧ Direct (runLog cfg0 storyDirect g0).2 := by
  have e : (runLog cfg0 storyDirect g0).2 =
      [.added 7 1 10000 2 40000 19000 7, .added 7 2 40000 3 10000 19000 7, .swap 8 [1, 2] 100 394 8, .swap 8 [2, 1] 198 50 8,
       .added 7 1 1000 2 3960 1989 6, .removed 7 1 1005 2 3980 2000 5, .disable (2, 3)] := by decide +kernel
  rw [e]
  refine ⟨fun f => by simp, fun w path x y d h => ?_⟩
  simp at h
  rcases h with ⟨_, rfl, _⟩ | ⟨_, rfl, _⟩ <;> rfl


/-- A history with a fee receiver. -/
def receiverOps : List Op :=
  storyOps ++ [.setFeeTo (some 6), .add 7 1 2 10000 40000 0 0 7 none, .swapSupply 7 10000 0 [1, 2] 8 none]

/-- C236: with a fee receiver the bound can be strict: the exchange mints liquidity tokens to the fee receiver without an event of
its own. -/
theorem C236_fees : Reach cfg0 g0 ∧ Told cfg0 (fun _ => True) g0 (runLog cfg0 receiverOps g0).1 (runLog cfg0 receiverOps g0).2 ∧
    ((runLog cfg0 receiverOps g0).2.foldl follow (picture g0)).shares (1, 2) = some 40000 ∧
    ((runLog cfg0 receiverOps g0).1.lp (1, 2)).map (runLog cfg0 receiverOps g0).1.led.iss = some 40003 :=
  ⟨.init genesis_g0, told_run receiverOps (fun _ _ => trivial) (by decide +kernel), by decide +kernel, by decide +kernel⟩

/-- Two histories that differ in how the same trade along three assets is asked for. -/
def pathSupply : List Op := storyOps ++ [.swapSupply 8 2 0 [1, 2, 3] 8 none]
/-- As before, naming the target. -/
def pathTarget : List Op := storyOps ++ [.swapTarget 8 1 5 [1, 2, 3] 8 none]

/-- Two histories of which one contains a payment to the address of a pool. -/
def noGift : List Op := storyOps ++ [.swapSupply 8 100 0 [1, 2] 8 none]
/-- As before, with the payment. -/
def gift : List Op := storyOps ++ [.transfer 7 1 (poolAddr (1, 2)) 500, .swapSupply 8 100 0 [1, 2] 8 none]

/-- C237, refuted: nobody can tell the reserves from the events, whatever method they use. From the same start two histories leave
the same events and different reserves, although nobody pays a pool address: a swap along a path does not tell what the pools on
the way gave, and that depends on whether supply or target was fixed. -/
theorem C237_refuted : ∃ (s t u : St) (log : List Ev), Reach cfg0 s ∧ Clean s ∧ s.feeTo = none ∧
    Told cfg0 Quiet s t log ∧ Told cfg0 Quiet s u log ∧ t.res (1, 2) ≠ u.res (1, 2) := by
  refine ⟨g0, (runLog cfg0 pathSupply g0).1, (runLog cfg0 pathTarget g0).1, (runLog cfg0 pathSupply g0).2, .init genesis_g0,
    fun _ => rfl, rfl, told_run pathSupply (fun op ho => quiet_small ?_) (by decide +kernel), ?_, by decide +kernel⟩
  · revert op; decide +kernel
  · have e : (runLog cfg0 pathSupply g0).2 = (runLog cfg0 pathTarget g0).2 := by decide +kernel
    rw [e]
    refine told_run pathTarget (fun op ho => quiet_small ?_) (by decide +kernel)
    revert op; decide +kernel

/-- C237, refuted, with direct swaps only: tokens paid to the address of a pool become part of its reserves at the next swap, and
no event of the exchange tells. -/
theorem C237_gift_refuted : ∃ (s t u : St) (log : List Ev), Reach cfg0 s ∧ Direct log ∧
    Told cfg0 (fun _ => True) s t log ∧ Told cfg0 (fun _ => True) s u log ∧ t.res (1, 2) ≠ u.res (1, 2) := by
  refine ⟨g0, (runLog cfg0 noGift g0).1, (runLog cfg0 gift g0).1, (runLog cfg0 noGift g0).2, .init genesis_g0, ?_,
    told_run noGift (fun _ _ => trivial) (by decide +kernel), ?_, by decide +kernel⟩
  · have e : (runLog cfg0 noGift g0).2 =
        [.added 7 1 10000 2 40000 19000 7, .added 7 2 40000 3 10000 19000 7, .swap 8 [1, 2] 100 394 8] := by decide +kernel
    rw [e]
    intro w path x y d h
    simp at h
    obtain ⟨_, rfl, _⟩ := h
    rfl
  · have e : (runLog cfg0 noGift g0).2 = (runLog cfg0 gift g0).2 := by decide +kernel
    rw [e]
    exact told_run gift (fun _ _ => trivial) (by decide +kernel)

end Verif.Dex
