import Verif.Vortex.Demo

/-!
# Events of the vortex distribution

The events that `/repo/pallet/vortex-distribution/src/lib.rs` deposits, as functions of the state before and after a call. The
model keeps those of starts and payouts in its state; here all of them are told.
-/

namespace Verif.Vortex

/-- /repo/pallet/vortex-distribution/src/lib.rs 240-277. -/
inductive Said where
  /-- `AdminAccountChanged` -/
  | admin (old : Option Acct) (new : Acct)
  /-- `RewardRegistered` -/
  | rewards (id : Nat) (rs : List (Acct × Nat))
  | created (id : Nat)
  | disabled (id : Nat)
  | done (id : Nat)
  | paid (id : Nat) (who : Acct) (amount : Nat)
  | started (id : Nat)
  | eras (id a b : Nat)
  | prices (id : Nat) (ps : List (AssetId × Nat))
  | triggered (id : Nat)
deriving DecidableEq

/-- The events kept by the model; `VtxDistStarted` does not tell the amount. -/
def Ev.said : Ev → Said
  | .started id _ => .started id
  | .paid id w x => .paid id w x
  | .done id => .done id

/-- The events of a call that leads from `s` to `s'`: 356, 378, 395, 413, 457, 480, 509, 556, 702, 739. 355-359: the old administrator is read after the new one was written. -/
def evs (s s' : St) : Op → List Said
  | .setAdmin _ n => [.admin s'.admin n]
  | .create _ => [.created s.next]
  | .disable _ id => [.disabled id]
  | .start _ _ => (s'.events.drop s.events.length).map Ev.said
  | .pay _ _ => (s'.events.drop s.events.length).map Ev.said
  | .setEras _ id a b => [.eras id a b]
  | .setPrices _ ps id => [.prices id ps]
  | .register _ id rs => [.rewards id rs]
  | .trigger _ id => [.triggered id]
  | _ => []

/-- The events of an operation; one that fails leaves none. -/
def tell (c : Cfg) (s : St) (op : Op) : List Said :=
  match step c s op with
  | .ok s' => evs s s' op
  | .error _ => []

/-- The events of a history. -/
def story (c : Cfg) (s : St) : List Op → List Said
  | [] => []
  | op :: ops => tell c s op ++ story c (after c s op) ops

/-! ## Specification: what a reader takes from the events -/

/-- What a reader writes down. -/
@[ext] structure Page where
  admin : Option Acct
  status : Nat → Status
  eras : Nat → Nat × Nat
  /-- the reward of an account -/
  reward : Nat → Acct → Nat
  price : Nat → AssetId → Nat
  /-- the assets with a price -/
  listed : Nat → AssetId → Bool
  /-- what will be minted -/
  total : Nat → Nat

/-- Registered rewards replace earlier ones of the same account. -/
def setAll {α β : Type} [DecidableEq α] (f : α → β) (rs : List (α × β)) : α → β := rs.foldl (fun f r => upd f r.1 r.2) f

def Page.read (p : Page) : Said → Page
  | .admin _ n => { p with admin := some n }
  | .created id => { p with status := upd p.status id .enabled }
  | .disabled id => { p with status := upd p.status id .disabled }
  | .done id => { p with status := upd p.status id .done }
  | .started id => { p with
      status := upd p.status id .paying
      total := upd p.total id 0 }
  | .triggered id => { p with status := upd p.status id .triggered }
  | .eras id a b => { p with eras := upd p.eras id (a, b) }
  | .rewards id rs => { p with
      reward := upd p.reward id (setAll (p.reward id) rs)
      total := upd p.total id (satAdd (p.total id) (wrapSum rs)) }
  | .prices id ps => { p with
      price := upd p.price id (setAll (p.price id) ps)
      listed := upd p.listed id (fun a => p.listed id a || decide (a ∈ ps.map Prod.fst)) }
  | .paid _ _ _ => p

/-- Reading all events. -/
def Page.follow (p : Page) (es : List Said) : Page := es.foldl Page.read p

/-- What is stored. -/
def view (s : St) : Page where
  admin := s.admin
  status := s.status
  eras := s.eras
  reward := reward s
  price := s.price
  listed := fun id a => decide (a ∈ s.priced id)
  total := s.total

/-- What `who` is paid according to events. -/
def Said.got (who : Acct) : Said → Nat
  | .paid _ w x => if w = who then x else 0
  | _ => 0

def gotBy (who : Acct) (es : List Said) : Nat := (es.map (Said.got who)).sum

/-! ## Proofs -/

theorem payOne_adds {c : Cfg} {id : Nat} {acc : Acc} {w : Acct} :
    ∃ es, (payOne c id acc w).events = acc.events ++ es ∧ (∀ e ∈ es, ∃ w x, e = .paid id w x) ∧
      ∀ who, who ≠ c.vault → (payOne c id acc w).ledger.bal c.vtx who = acc.ledger.bal c.vtx who + gotBy who (es.map Ev.said) := by
  obtain ⟨_, _, h⟩ := payOne_cases (c := c) (id := id) (acc := acc) (w := w)
  rcases h with ⟨L, h1, h2, h3⟩ | ⟨_, h2, h3⟩
  · refine ⟨[_], h3, fun e he => ⟨_, _, List.mem_singleton.1 he⟩, fun who hw => ?_⟩
    obtain ⟨_, _, _, h4⟩ := safeTransfer_ok h1
    have := h4 who
    rw [if_neg hw, Nat.add_zero] at this
    rw [h2, this]
    simp only [List.map_cons, List.map_nil, Ev.said, gotBy, Said.got, List.sum_cons, List.sum_nil, Nat.add_zero]
    by_cases e : who = w
    · rw [if_pos e, if_pos e.symm]
    · rw [if_neg e, if_neg (fun h => e h.symm)]
  · refine ⟨[], by rw [h3, List.append_nil], (fun _ h => nomatch h), fun who hw => ?_⟩
    rw [h2]
    rfl

theorem gotBy_append (who : Acct) (es fs : List Said) : gotBy who (es ++ fs) = gotBy who es + gotBy who fs := by
  simp only [gotBy, List.map_append, List.sum_append]

theorem payRun_adds {c : Cfg} (s : St) (id : Nat) :
    ∃ es, (payRun c s id).events = s.events ++ es ∧ (∀ e ∈ es, ∃ w x, e = .paid id w x) ∧
      (∀ who, who ≠ c.vault → (payRun c s id).ledger.bal c.vtx who = s.ledger.bal c.vtx who + gotBy who (es.map Ev.said)) ∧
      ∀ w, ((payRun c s id).book w).1 = (s.book id w).1 := by
  unfold payRun
  refine payLoop_ind (c := c) (id := id) (fun acc => ∃ es, acc.events = s.events ++ es ∧ (∀ e ∈ es, ∃ w x, e = .paid id w x) ∧
    (∀ who, who ≠ c.vault → acc.ledger.bal c.vtx who = s.ledger.bal c.vtx who + gotBy who (es.map Ev.said)) ∧
    ∀ w, (acc.book w).1 = (s.book id w).1) _ _ _ (fun acc w _ _ h => h) (fun acc w _ _ h => ?_)
    ⟨[], (List.append_nil _).symm, (fun _ h => nomatch h), fun _ _ => rfl, fun _ => rfl⟩
  obtain ⟨es, h1, h2, h3, h4⟩ := h
  obtain ⟨fs, k1, k2, k3⟩ := payOne_adds (c := c) (id := id) (acc := acc) (w := w)
  refine ⟨es ++ fs, by rw [k1, h1, List.append_assoc], fun e he => ?_, fun who hw => ?_, fun v => ?_⟩
  · rcases List.mem_append.1 he with he | he
    · exact h2 e he
    · exact k2 e he
  · rw [k3 who hw, h3 who hw, List.map_append, gotBy_append, Nat.add_assoc]
  · rw [(payOne_cases (c := c) (id := id) (acc := acc) (w := w)).1, upd_apply]
    split
    · rename_i e
      rw [e]
      exact h4 w
    · exact h4 v

theorem follow_paid (p : Page) : ∀ (es : List Ev) (id : Nat), (∀ e ∈ es, ∃ w x, e = .paid id w x) → p.follow (es.map Ev.said) = p
  | [], _, _ => rfl
  | e :: es, id, h => by
    obtain ⟨w, x, rfl⟩ := h e List.mem_cons_self
    exact follow_paid p es id (fun e he => h e (List.mem_cons_of_mem _ he))

theorem follow_append (p : Page) (es fs : List Said) : p.follow (es ++ fs) = (p.follow es).follow fs := List.foldl_append

theorem addRewards_reward {c : Cfg} : ∀ (rs : List (Acct × Nat)) (m : List Acct × (Acct → Nat × Bool)) (f : Acct → Nat),
    (∀ w, (m.2 w).1 = f w) → ∀ w, ((rs.foldl (addReward c) m).2 w).1 = setAll f rs w
  | [], _, _, h => h
  | r :: rs, m, f, h => by
    refine addRewards_reward rs (addReward c m r) (upd f r.1 r.2) (fun w => ?_)
    simp only [addReward, upd_apply]
    split
    · rfl
    · exact h w

theorem addPrices_price : ∀ (ps : List (AssetId × Nat)) (m : List AssetId × (AssetId → Nat)),
    (ps.foldl addPrice m).2 = setAll m.2 ps ∧ ∀ a, a ∈ (ps.foldl addPrice m).1 ↔ a ∈ m.1 ∨ a ∈ ps.map Prod.fst
  | [], _ => ⟨rfl, fun a => by simp⟩
  | p :: ps, m => by
    obtain ⟨h1, h2⟩ := addPrices_price ps (addPrice m p)
    refine ⟨h1, fun a => (h2 a).trans ?_⟩
    simp only [addPrice, List.map_cons, List.mem_cons]
    split
    · rename_i hm
      constructor
      · rintro (h | h)
        · exact .inl h
        · exact .inr (.inr h)
      · rintro (h | h | h)
        · exact .inl h
        · exact .inl (h ▸ hm)
        · exact .inr h
    · simp only [List.mem_append, List.mem_singleton]
      tauto

theorem reward_upd {s : St} {id : Nat} {b : Acct → Nat × Bool} {f : Acct → Nat} (h : ∀ w, (b w).1 = f w) :
    (fun i w => (upd s.book id b i w).1) = upd (reward s) id f := by
  funext i w
  rw [upd_apply, upd_apply]
  split
  · exact h w
  · rfl

theorem step_page {c : Cfg} {s s' : St} {op : Op} (hs : step c s op = .ok s') : (view s).follow (evs s s' op) = view s' := by
  cases op with
  | setAdmin o n => obtain ⟨_, rfl⟩ := setAdmin_ok hs; rfl
  | create o => obtain ⟨_, _, rfl⟩ := create_ok hs; rfl
  | disable o id => obtain ⟨_, _, rfl⟩ := disable_ok hs; rfl
  | start o id =>
    obtain ⟨_, _, L, _, rfl⟩ := start_ok hs
    simp only [evs, List.drop_left]
    rfl
  | pay id b =>
    obtain ⟨_, h⟩ := pay_ok hs
    obtain ⟨es, k1, k2, _, k4⟩ := payRun_adds (c := c) s id
    have hr := reward_upd (s := s) (id := id) k4
    have hr' : upd (reward s) id (fun w => (s.book id w).1) = reward s := by
      funext i w
      rw [upd_apply]
      split
      · rename_i e; rw [e]; rfl
      · rfl
    rw [hr'] at hr
    rcases h with ⟨_, rfl⟩ | ⟨_, _, rfl⟩ | ⟨_, _, rfl⟩
    · simp only [evs, List.drop_length]
      rfl
    · simp only [evs, k1, List.append_assoc, List.drop_left, List.map_append, follow_append, follow_paid _ es id k2]
      unfold view
      rw [show reward { s with
        ledger := (payRun c s id).ledger
        book := upd s.book id (payRun c s id).book
        events := s.events ++ (es ++ [.done id])
        status := upd s.status id .done
        pivot := upd s.pivot id (some (payRun c s id).last)
        unsignedAt := s.now + c.interval } = reward s from hr]
      rfl
    · simp only [evs, k1, List.drop_left, follow_paid _ es id k2]
      unfold view
      rw [show reward { s with
        ledger := (payRun c s id).ledger
        book := upd s.book id (payRun c s id).book
        events := s.events ++ es
        pivot := upd s.pivot id (some (payRun c s id).last)
        unsignedAt := s.now + c.interval } = reward s from hr]
  | setEras o id a b => obtain ⟨_, rfl⟩ := setEras_ok hs; rfl
  | setPrices o ps id =>
    obtain ⟨_, _, rfl⟩ := setPrices_ok hs
    obtain ⟨k1, k2⟩ := addPrices_price ps (s.priced id, s.price id)
    simp only [evs, Page.follow, List.foldl_cons, List.foldl_nil, Page.read, view]
    refine Page.ext rfl rfl rfl rfl ?_ ?_ rfl
    · simp only [k1]
    · funext i a
      simp only [upd_apply]
      split
      · simp only [k2, Bool.decide_or]
      · rfl
  | register o id rs =>
    obtain ⟨_, _, rfl⟩ := register_ok hs
    simp only [evs, Page.follow, List.foldl_cons, List.foldl_nil, Page.read, view]
    refine Page.ext rfl rfl rfl ?_ rfl rfl rfl
    exact (reward_upd (s := s) (id := id)
      (addRewards_reward (c := c) rs (s.keys id, s.book id) (reward s id) (fun w => rfl))).symm
  | trigger o id => obtain ⟨_, _, _, _, _, _, rfl⟩ := trigger_ok hs; rfl
  | redeem w id v => obtain ⟨_, _, _, _, _, _, _, _, rfl⟩ := redeem_ok hs; rfl
  | nextBlock => cases hs; rfl
  | move a x y n =>
    simp only [step, bind_ok, pure_ok] at hs
    obtain ⟨_, _, rfl⟩ := hs; rfl
  | mint a y n =>
    simp only [step, bind_ok, pure_ok] at hs
    obtain ⟨_, _, rfl⟩ := hs; rfl
  | burn a x n =>
    simp only [step, bind_ok, pure_ok] at hs
    obtain ⟨_, _, rfl⟩ := hs; rfl

/-! ## C246 -/

/-- C246: a reader who starts from what is stored and follows the events knows, after any history, the administrator, the
stage and eras of every distribution, every reward, every price and what a start will mint. -/
theorem C246_page (c : Cfg) : ∀ (ops : List Op) (s : St), (view s).follow (story c s ops) = view (exec c s ops)
  | [], _ => rfl
  | op :: ops, s => by
    unfold story exec tell after
    cases hs : step c s op with
    | error e => exact C246_page c ops s
    | ok s' =>
      simp only
      rw [follow_append, step_page hs]
      exact C246_page c ops s'

/-- C246: what a start mints is what the reader has on the page. -/
theorem C246_minted {c : Cfg} {g s' : St} {ops : List Op} {o : Origin} {id : Nat}
    (hs : step c (exec c g ops) (.start o id) = .ok s') :
    s'.ledger.iss c.vtx = (exec c g ops).ledger.iss c.vtx + ((view g).follow (story c g ops)).total id := by
  obtain ⟨_, _, L, h, rfl⟩ := start_ok hs
  rw [C246_page]
  exact (Ledger.mint_ok h).2.1

/-- C246: the hypothesis is met; the reader of this history expects 90 to be minted. -/
example : (step cd (exec cd g0 fill) (.start (some 9) 0)).isOk = true ∧ ((view g0).follow (story cd g0 fill)).total 0 = 90 ∧
    story cd g0 fill = [.admin (some 9) 9, .created 0, .prices 0 [(2, 7)], .rewards 0 [(11, 30), (10, 20), (12, 40)],
      .triggered 0] := by decide +kernel

/-- C246: what a payout call pays to an account is what its events say. -/
theorem C246_paid {c : Cfg} {s s' : St} {id b : Nat} (hs : step c s (.pay id b) = .ok s') (who : Acct) (hw : who ≠ c.vault) :
    s'.ledger.bal c.vtx who = s.ledger.bal c.vtx who + gotBy who (tell c s (.pay id b)) := by
  have et : tell c s (.pay id b) = evs s s' (.pay id b) := by unfold tell; rw [hs]
  rw [et]
  obtain ⟨_, h⟩ := pay_ok hs
  obtain ⟨es, k1, k2, k3, _⟩ := payRun_adds (c := c) s id
  rcases h with ⟨_, rfl⟩ | ⟨_, _, rfl⟩ | ⟨_, _, rfl⟩
  · simp only [evs, List.drop_length]
    rfl
  · simp only [evs, k1, List.append_assoc, List.drop_left, List.map_append, gotBy_append]
    exact k3 who hw
  · simp only [evs, k1, List.drop_left]
    exact k3 who hw

/-- C246: the hypothesis is met by a call that pays one account. -/
example : (step cd s2 (.pay 0 0)).isOk = true ∧ gotBy 10 (tell cd s2 (.pay 0 0)) = 20 ∧ s2.ledger.bal 3 10 = 0 ∧
    (exec cd s2 [.pay 0 0]).ledger.bal 3 10 = 20 := by decide +kernel

/-- C246: an announced end is the stored end: the distribution was being paid out before and is done afterwards. -/
theorem C246_done {c : Cfg} {s : St} {op : Op} {id : Nat} (h : Said.done id ∈ tell c s op) :
    (∃ b, op = .pay id b) ∧ s.status id = .paying ∧ (after c s op).status id = .done := by
  unfold tell at h
  unfold after
  cases hs : step c s op with
  | error e => rw [hs] at h; cases h
  | ok s' =>
    rw [hs] at h
    simp only at h ⊢
    cases op with
    | start o i =>
      obtain ⟨_, _, L, _, rfl⟩ := start_ok hs
      simp only [evs, List.drop_left, List.map_cons, List.map_nil, List.mem_singleton, Ev.said] at h
      cases h
    | pay i b =>
      obtain ⟨hp, hc⟩ := pay_ok hs
      obtain ⟨es, k1, k2, _⟩ := payRun_adds (c := c) s i
      have no : Said.done id ∉ es.map Ev.said := by
        intro hm
        obtain ⟨e, he, hd⟩ := List.mem_map.1 hm
        obtain ⟨w, x, rfl⟩ := k2 e he
        cases hd
      rcases hc with ⟨_, rfl⟩ | ⟨hp', _, rfl⟩ | ⟨_, _, rfl⟩
      · simp only [evs, List.drop_length, List.map_nil] at h
        cases h
      · simp only [evs, k1, List.append_assoc, List.drop_left, List.map_append, List.mem_append, List.map_cons, List.map_nil,
          List.mem_singleton, Ev.said] at h
        rcases h with h | h
        · exact absurd h no
        · cases h
          exact ⟨⟨b, rfl⟩, hp', upd_same _ _ _⟩
      · simp only [evs, k1, List.drop_left] at h
        exact absurd h no
    | setAdmin => simp [evs] at h
    | create => simp [evs] at h
    | disable => simp [evs] at h
    | setEras => simp [evs] at h
    | setPrices => simp [evs] at h
    | register => simp [evs] at h
    | trigger => simp [evs] at h
    | redeem => simp [evs] at h
    | nextBlock => simp [evs] at h
    | move => simp [evs] at h
    | mint => simp [evs] at h
    | burn => simp [evs] at h

/-- C246: the history of `s4` ends with such an event. -/
example : Said.done 0 ∈ tell cd (exec cd s2 [.pay 0 0, .pay 0 0]) (.pay 0 0) := by decide +kernel

/-- C246 fails for the old administrator: every announced change names the new one twice. -/
theorem C246_old_refuted {c : Cfg} {s s' : St} {o : Origin} {n : Acct} (h : step c s (.setAdmin o n) = .ok s') :
    tell c s (.setAdmin o n) = [.admin (some n) n] := by
  unfold tell
  rw [h]
  obtain ⟨_, rfl⟩ := setAdmin_ok h
  rfl

/-- C246: the replaced administrator 9 is not in the event. -/
example : (exec cd g0 fill).admin = some 9 ∧ (step cd (exec cd g0 fill) (.setAdmin none 8)).isOk = true := by decide +kernel

/-- C246 fails for redemptions: a history in which account 11 redeems tells the same events as one in which it does not. -/
theorem C246_redeem_refuted :
    ∃ ops : List Op, story cd s4 ops = story cd s4 [] ∧ (exec cd s4 ops).ledger.bal cd.vtx 11 = 0 ∧
      (exec cd s4 []).ledger.bal cd.vtx 11 = 30 ∧ (exec cd s4 ops).ledger.bal 2 11 = 300 ∧
      (exec cd s4 []).ledger.bal 2 11 = 0 :=
  ⟨[.redeem 11 0 30], by decide +kernel⟩

/-- C246 fails for missed payouts: the end is announced although no event told of a payment to the registered account 11. -/
theorem C246_missed_refuted :
    ∃ ops : List Op, Said.done 0 ∈ story cd g0 ops ∧ ((view g0).follow (story cd g0 ops)).reward 0 11 = 1 ∧
      gotBy 11 (story cd g0 ops) = 0 :=
  ⟨[.create none, .register none 0 [(10, 340282366920938463463374607431768211455), (11, 1)],
    .trigger none 0, .start none 0, .pay 0 0, .pay 0 0, .pay 0 0], by decide +kernel⟩

end Verif.Vortex
