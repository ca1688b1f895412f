import Verif.Vortex.Demo

/-!
# Who pays a started distribution: off-chain workers and the transaction pool (C241)

The payout call is unsigned. After every block the validators' off-chain workers submit one for each distribution that is
being paid, unless one was executed less than an interval ago. Line numbers refer to
/repo/pallet/vortex-distribution/src/lib.rs.
-/

namespace Verif.Vortex

variable {c : Cfg}

/-! ## Model -/

/-- A `pay_unsigned` call in the pool (424-430). -/
structure Tx where
  id : Nat
  block : Nat
deriving DecidableEq, Repr

/-- The call as an operation of the pallet. -/
def Tx.op (t : Tx) : Op := .pay t.id t.block

/-- 745-768 `vtx_dist_offchain_worker` on a validator after block `s.now`; `ids` is the order in which the map of statuses is
read. -/
def work (s : St) (ids : List Nat) : List Tx :=
  if s.now < s.unsignedAt then []
  else (ids.filter (fun id => s.status id = .paying)).map (fun id => ⟨id, s.now⟩)

/-- 633-650 `validate_unsigned` and the transaction pool: a call from the future is refused; the tag of a call is its block
number, and all have the same priority, so the first with a tag stays. (The pool's other limits are left out.) -/
def admit (now : Nat) (pool : List Tx) (t : Tx) : List Tx :=
  if t.block ≤ now ∧ ∀ u ∈ pool, u.block ≠ t.block then pool ++ [t] else pool

/-- What happens at one block: the signed calls in it, the payout calls somebody else has submitted before the workers do,
whether a validator's worker runs, and the order in which it reads the statuses. -/
structure Blk where
  calls : List Op
  sent : List Tx
  awake : Bool
  ids : List Nat

/-- The chain and the pool of payout calls. -/
structure Net where
  st : St
  pool : List Tx

/-- One block: everything in the pool is included, then the other calls; then the pool fills again. -/
def round (c : Cfg) (n : Net) (b : Blk) : Net :=
  let s := exec c (after c n.st .nextBlock) (n.pool.map Tx.op ++ b.calls)
  ⟨s, (b.sent ++ if b.awake then work s b.ids else []).foldl (admit s.now) []⟩

/-- A row of blocks. -/
def rounds (c : Cfg) (n : Net) (bs : List Blk) : Net := bs.foldl (round c) n

/-! ## Specification -/

/-- A call other than payouts, starts and disabling; blocks pass only as `round` says. -/
def Quiet : Op → Prop
  | .pay _ _ => False
  | .start _ _ => False
  | .disable _ _ => False
  | .nextBlock => False
  | _ => True

/-- Payout calls that the distributions below `n` may still need. -/
def needed (s : St) : Nat → Nat
  | 0 => 0
  | n + 1 => needed s n + if s.status n = .paying then (s.keys n).length + 2 else 0

/-! ## Proof -/

theorem exec_append (s : St) : ∀ (xs ys : List Op), exec c s (xs ++ ys) = exec c (exec c s xs) ys
  | [], _ => rfl
  | x :: xs, ys => by simp only [List.cons_append, exec]; exact exec_append _ xs ys

/-- What a step that pays, starts and disables nothing leaves as it is. -/
structure Same (c : Cfg) (s s' : St) : Prop where
  now : s'.now = s.now
  unsignedAt : s'.unsignedAt = s.unsignedAt
  events : s'.events = s.events
  paying : ∀ id, s'.status id = .paying ↔ s.status id = .paying
  done : ∀ id, s.status id = .done → s'.status id = .done
  left : ∀ id, s.status id = .paying → left c s' id = left c s id

theorem Same.refl (s : St) : Same c s s := ⟨rfl, rfl, rfl, fun _ => Iff.rfl, fun _ h => h, fun _ _ => rfl⟩

theorem Same.trans {s s1 s2 : St} (h : Same c s s1) (h' : Same c s1 s2) : Same c s s2 where
  now := h'.now.trans h.now
  unsignedAt := h'.unsignedAt.trans h.unsignedAt
  events := h'.events.trans h.events
  paying := fun id => (h'.paying id).trans (h.paying id)
  done := fun id hd => h'.done id (h.done id hd)
  left := fun id hp => (h'.left id ((h.paying id).mpr hp)).trans (h.left id hp)

theorem Same.of {s s' : St} (h1 : s'.now = s.now) (h2 : s'.unsignedAt = s.unsignedAt) (h3 : s'.events = s.events)
    (hs : ∀ id, s'.status id = s.status id ∨
      (s'.status id ≠ .paying ∧ s.status id ≠ .paying ∧ s.status id ≠ .done))
    (hk : ∀ id, s.status id = .paying → s'.keys id = s.keys id ∧ s'.pivot id = s.pivot id) : Same c s s' where
  now := h1
  unsignedAt := h2
  events := h3
  paying := fun id => by
    rcases hs id with e | ⟨e1, e2, _⟩
    · rw [e]
    · exact ⟨fun h => absurd h e1, fun h => absurd h e2⟩
  done := fun id hd => by
    rcases hs id with e | ⟨_, _, e3⟩
    · exact e.trans hd
    · exact absurd hd e3
  left := fun id hp => by
    obtain ⟨e1, e2⟩ := hk id hp
    unfold Verif.Vortex.left pending
    rw [e1, e2]

theorem quiet_step {s s' : St} {op : Op} (hi : Inv c s) (hq : Quiet op) (hs : step c s op = .ok s') : Same c s s' := by
  have same : s'.now = s.now → s'.unsignedAt = s.unsignedAt → s'.events = s.events → s'.status = s.status →
      s'.keys = s.keys → s'.pivot = s.pivot → Same c s s' := fun h1 h2 h3 h4 h5 h6 =>
    .of h1 h2 h3 (fun id => .inl (by rw [h4])) (fun id _ => ⟨by rw [h5], by rw [h6]⟩)
  cases op with
  | setAdmin o n => obtain ⟨_, rfl⟩ := setAdmin_ok hs; exact same rfl rfl rfl rfl rfl rfl
  | create o =>
    obtain ⟨_, _, rfl⟩ := create_ok hs
    refine .of rfl rfl rfl (fun id => ?_) (fun _ _ => ⟨rfl, rfl⟩)
    by_cases e : id = s.next
    · subst e
      have := (hi.fresh s.next (Nat.le_refl _)).1
      refine .inr ⟨?_, ?_, ?_⟩
      · simp only [upd_same]; decide
      · rw [this]; decide
      · rw [this]; decide
    · exact .inl (upd_ne _ _ e)
  | disable o i => exact hq.elim
  | start o i => exact hq.elim
  | pay i b => exact hq.elim
  | setEras o i a b => obtain ⟨_, rfl⟩ := setEras_ok hs; exact same rfl rfl rfl rfl rfl rfl
  | setPrices o ps i => obtain ⟨_, _, rfl⟩ := setPrices_ok hs; exact same rfl rfl rfl rfl rfl rfl
  | register o i rs =>
    obtain ⟨_, h1, rfl⟩ := register_ok hs
    refine .of rfl rfl rfl (fun _ => .inl rfl) (fun id hp => ⟨upd_ne _ _ ?_, rfl⟩)
    rintro rfl
    rw [h1] at hp; cases hp
  | trigger o i =>
    obtain ⟨_, h1, L1, L2, _, _, rfl⟩ := trigger_ok hs
    refine .of rfl rfl rfl (fun id => ?_) (fun _ _ => ⟨rfl, rfl⟩)
    by_cases e : id = i
    · subst e
      refine .inr ⟨?_, ?_, ?_⟩
      · simp only [upd_same]; decide
      · rw [h1]; decide
      · rw [h1]; decide
    · exact .inl (upd_ne _ _ e)
  | redeem w i v => obtain ⟨_, _, _, _, L1, L2, _, _, rfl⟩ := redeem_ok hs; exact same rfl rfl rfl rfl rfl rfl
  | nextBlock => exact hq.elim
  | move a x y n =>
    simp only [step, bind_ok, pure_ok] at hs
    obtain ⟨L, _, rfl⟩ := hs; exact same rfl rfl rfl rfl rfl rfl
  | mint a y n =>
    simp only [step, bind_ok, pure_ok] at hs
    obtain ⟨L, _, rfl⟩ := hs; exact same rfl rfl rfl rfl rfl rfl
  | burn a x n =>
    simp only [step, bind_ok, pure_ok] at hs
    obtain ⟨L, _, rfl⟩ := hs; exact same rfl rfl rfl rfl rfl rfl

theorem after_inv {s : St} (h : Inv c s) (op : Op) : Inv c (after c s op) := by
  unfold after
  cases he : step c s op with
  | ok s' => exact inv_step h he
  | error _ => exact h

theorem exec_inv : ∀ (ops : List Op) {s : St}, Inv c s → Inv c (exec c s ops)
  | [], _, h => h
  | op :: ops, _, h => exec_inv ops (after_inv h op)

theorem quiet_exec : ∀ (ops : List Op) {s : St}, Inv c s → (∀ op ∈ ops, Quiet op) → Same c s (exec c s ops)
  | [], s, _, _ => .refl s
  | op :: ops, s, hi, hq => by
    have h1 : Same c s (after c s op) := by
      unfold after
      cases he : step c s op with
      | ok s' => exact quiet_step hi (hq op List.mem_cons_self) he
      | error _ => exact .refl s
    exact h1.trans (quiet_exec ops (after_inv hi op) (fun o ho => hq o (List.mem_cons_of_mem _ ho)))

/-- The weight of one distribution: at most as many payout calls are missing. -/
def load (c : Cfg) (s : St) (id : Nat) : Nat := if s.status id = .paying then left c s id + 1 else 0

/-- The weight of the first distributions. -/
def loads (c : Cfg) (s : St) : Nat → Nat
  | 0 => 0
  | n + 1 => loads c s n + load c s n

theorem loads_le {s s' : St} (h : ∀ id, load c s' id ≤ load c s id) : ∀ n, loads c s' n ≤ loads c s n
  | 0 => Nat.le_refl _
  | n + 1 => Nat.add_le_add (loads_le h n) (h n)

theorem loads_lt {s s' : St} (h : ∀ id, load c s' id ≤ load c s id) {i : Nat} (hi : load c s' i < load c s i) :
    ∀ {n}, i < n → loads c s' n < loads c s n
  | n + 1, hn => by
    unfold loads
    by_cases e : i = n
    · subst e; exact Nat.add_lt_add_of_le_of_lt (loads_le h i) hi
    · exact Nat.add_lt_add_of_lt_of_le (loads_lt h hi (by omega)) (h n)

theorem load_pos {s : St} {i : Nat} (h : s.status i = .paying) : ∀ {n}, i < n → 0 < loads c s n
  | n + 1, hn => by
    unfold loads
    by_cases e : i = n
    · subst e; unfold load; rw [if_pos h]; omega
    · have := load_pos (n := n) h (by omega); omega

theorem left_le (s : St) (id : Nat) : left c s id + 1 ≤ (s.keys id).length + 2 := by
  have : (pending c s id).length ≤ (s.keys id).length := by
    unfold pending
    split
    · exact List.length_filter_le _ _
    · exact Nat.le_refl _
  unfold left
  split <;> omega

theorem loads_needed (s : St) : ∀ n, loads c s n ≤ needed s n
  | 0 => Nat.le_refl _
  | n + 1 => by
    unfold loads needed load
    have := loads_needed s n
    have := left_le (c := c) s n
    split <;> omega

theorem Same.load {s s' : St} (h : Same c s s') (id : Nat) : load c s' id = load c s id := by
  unfold Verif.Vortex.load
  by_cases hp : s.status id = .paying
  · rw [if_pos hp, if_pos ((h.paying id).mpr hp), h.left id hp]
  · rw [if_neg hp, if_neg (fun e => hp ((h.paying id).mp e))]

/-- One payout call: what it leaves, and what it brings forward. -/
theorem pay_load {s s' : St} {id b : Nat} (hi : Inv c s) (hs : step c s (.pay id b) = .ok s') :
    s'.now = s.now ∧ s'.unsignedAt = s.now + c.interval ∧ (∀ i, load c s' i ≤ load c s i) ∧
    (∀ i, s'.status i = .paying → s.status i = .paying) ∧
    (∀ i, s.status i = .paying ∨ s.status i = .done → s'.status i = .paying ∨ s'.status i = .done) ∧
    (s.status id = .paying → load c s' id < load c s id) := by
  have hp := (pay_ok hs).2
  have prog : s.status id = .paying → load c s' id < load c s id := by
    intro h1
    unfold load
    rw [if_pos h1]
    rcases pay_progress hi h1 hs with e | ⟨e1, e2⟩
    · rw [if_neg (by rw [e]; decide)]; omega
    · rw [if_pos e1]; omega
  have other : ∀ i, i ≠ id → s'.status i = s.status i ∧ load c s' i = load c s i := by
    intro i hne
    unfold load left pending
    rcases hp with ⟨_, rfl⟩ | ⟨_, _, rfl⟩ | ⟨_, _, rfl⟩
    · exact ⟨rfl, rfl⟩
    · simp only [upd_ne _ _ hne]; exact ⟨trivial, trivial⟩
    · simp only [upd_ne _ _ hne]; exact ⟨trivial, trivial⟩
  have times : s'.now = s.now ∧ s'.unsignedAt = s.now + c.interval := by
    rcases hp with ⟨_, rfl⟩ | ⟨_, _, rfl⟩ | ⟨_, _, rfl⟩ <;> exact ⟨rfl, rfl⟩
  have own : s'.status id = s.status id ∨ (s.status id = .paying ∧ s'.status id = .done) := by
    rcases hp with ⟨_, rfl⟩ | ⟨h1, _, rfl⟩ | ⟨_, _, rfl⟩
    · exact .inl rfl
    · exact .inr ⟨h1, upd_same _ _ _⟩
    · exact .inl rfl
  refine ⟨times.1, times.2, fun i => ?_, fun i => ?_, fun i => ?_, prog⟩
  · by_cases e : i = id
    · subst e
      by_cases h1 : s.status i = .paying
      · exact Nat.le_of_lt (prog h1)
      · rcases own with e | ⟨e, _⟩
        · unfold load; rw [e, if_neg h1]; exact Nat.zero_le _
        · exact absurd e h1
    · exact Nat.le_of_eq (other i e).2
  · by_cases e : i = id
    · subst e
      rcases own with e | ⟨e, _⟩
      · rw [e]; exact fun h => h
      · exact fun _ => e
    · rw [(other i e).1]; exact fun h => h
  · by_cases e : i = id
    · subst e
      rcases own with e | ⟨_, e⟩
      · rw [e]; exact fun h => h
      · exact fun _ => .inr e
    · rw [(other i e).1]; exact fun h => h

theorem pay_runs (s : St) {id b : Nat} (hb : b ≤ s.now) : ∃ s', step c s (.pay id b) = .ok s' := by
  have hb : ensure (b ≤ s.now) "Future" = .ok () := ensure_pos hb
  simp only [step, pay, hb, bind, Except.bind]
  split
  · split
    · exact ⟨_, rfl⟩
    · exact ⟨_, rfl⟩
  · exact ⟨_, rfl⟩

/-- The pool takes at most one of the calls that workers submit after a block. -/
theorem admit_same {now : Nat} : ∀ (ts : List Tx) (pool : List Tx), (∀ t ∈ ts, t.block = now) →
    (∃ u ∈ pool, u.block = now) → ts.foldl (admit now) pool = pool
  | [], _, _, _ => rfl
  | t :: ts, pool, h, hu => by
    have e : admit now pool t = pool := by
      unfold admit
      refine if_neg ?_
      rintro ⟨_, h2⟩
      obtain ⟨u, h3, h4⟩ := hu
      exact h2 u h3 (by rw [h4, h t List.mem_cons_self])
    rw [List.foldl_cons, e]
    exact admit_same ts pool (fun t ht => h t (List.mem_cons_of_mem _ ht)) hu

theorem admit_all {now : Nat} {ts : List Tx} (h : ∀ t ∈ ts, t.block = now) :
    ts.foldl (admit now) [] = ts.take 1 := by
  cases ts with
  | nil => rfl
  | cons t ts =>
    have e : admit now [] t = [t] := by
      unfold admit
      rw [if_pos ⟨Nat.le_of_eq (h t List.mem_cons_self), fun _ hu => nomatch hu⟩]
      rfl
    rw [List.foldl_cons, e]
    exact admit_same ts [t] (fun t ht => h t (List.mem_cons_of_mem _ ht)) ⟨t, List.mem_cons_self, h t List.mem_cons_self⟩

theorem work_block {s : St} {ids : List Nat} {t : Tx} (h : t ∈ work s ids) :
    t.block = s.now ∧ s.status t.id = .paying ∧ s.unsignedAt ≤ s.now := by
  unfold work at h
  split at h
  · cases h
  · rename_i hle
    obtain ⟨i, hi, rfl⟩ := List.mem_map.1 h
    exact ⟨rfl, by simpa using (List.mem_filter.1 hi).2, Nat.le_of_not_lt hle⟩

theorem after_next (s : St) : after c s .nextBlock = { s with now := s.now + 1 } := rfl

/-- The pool between blocks: nothing, or one call for a distribution being paid. -/
structure Good (c : Cfg) (N : Nat) (n : Net) : Prop where
  inv : Inv c n.st
  below : ∀ id, n.st.status id = .paying → id < N
  pool : n.pool = [] ∨ ∃ t, n.pool = [t] ∧ n.st.status t.id = .paying ∧ t.block ≤ n.st.now

/-- Blocks until everything is paid. -/
def wait (c : Cfg) (N : Nat) (n : Net) : Nat :=
  loads c n.st N * (c.interval + 1) + if n.pool = [] then max 1 (n.st.unsignedAt - n.st.now) else 0

/-- A block in which the workers run, nobody else submits payout calls, and nothing is started or disabled. -/
structure Calmly (N : Nat) (b : Blk) : Prop where
  awake : b.awake = true
  sent : b.sent = []
  calls : ∀ op ∈ b.calls, Quiet op
  ids : ∀ id < N, id ∈ b.ids

theorem round_good {N : Nat} {n : Net} {b : Blk} (h : Good c N n) (hb : Calmly N b) :
    Good c N (round c n b) ∧
    (∀ id, n.st.status id = .paying ∨ n.st.status id = .done →
      (round c n b).st.status id = .paying ∨ (round c n b).st.status id = .done) ∧
    (0 < loads c n.st N → loads c (round c n b).st N = 0 ∨ wait c N (round c n b) < wait c N n) ∧
    loads c (round c n b).st N ≤ loads c n.st N := by
  -- the state after the payout call, if there was one
  have hi1 : Inv c { n.st with now := n.st.now + 1 } := after_inv (c := c) h.inv .nextBlock
  have same1 : ∀ i, load c { n.st with now := n.st.now + 1 } i = load c n.st i := fun _ => rfl
  obtain ⟨s1, e1, hi2, hnow, hload, hpay, hkeep, hcase⟩ : ∃ s1, exec c (after c n.st .nextBlock) (n.pool.map Tx.op) = s1 ∧
      Inv c s1 ∧ s1.now = n.st.now + 1 ∧ (∀ i, load c s1 i ≤ load c n.st i) ∧
      (∀ i, s1.status i = .paying → n.st.status i = .paying) ∧
      (∀ i, n.st.status i = .paying ∨ n.st.status i = .done → s1.status i = .paying ∨ s1.status i = .done) ∧
      ((n.pool = [] ∧ s1.unsignedAt = n.st.unsignedAt) ∨
       (n.pool ≠ [] ∧ s1.unsignedAt = s1.now + c.interval ∧ loads c s1 N < loads c n.st N)) := by
    rcases h.pool with e | ⟨t, e, hp, ht⟩
    · rw [e]
      exact ⟨_, rfl, hi1, rfl, fun _ => Nat.le_refl _, fun _ h => h, fun _ h => h, .inl ⟨rfl, rfl⟩⟩
    · obtain ⟨s', hs⟩ := pay_runs (c := c) { n.st with now := n.st.now + 1 } (id := t.id) (b := t.block) (Nat.le_succ_of_le ht)
      have hx : exec c (after c n.st .nextBlock) (n.pool.map Tx.op) = s' := by
        rw [e]
        simp only [List.map_cons, List.map_nil, exec, after_next, Tx.op]
        unfold after
        rw [hs]
      obtain ⟨p1, p2, p3, p4, p5, p6⟩ := pay_load hi1 hs
      refine ⟨s', hx, inv_step hi1 hs, p1, p3, p4, p5, .inr ⟨by rw [e]; exact List.cons_ne_nil _ _, by rw [p2, p1], ?_⟩⟩
      exact loads_lt (s := n.st) (s' := s') p3 (p6 hp) (h.below _ hp)
  have hsame := quiet_exec b.calls hi2 hb.calls
  have hst : (round c n b).st = exec c s1 b.calls := by
    show exec c _ _ = _
    rw [exec_append, e1]
  have hpool : (round c n b).pool = (work (round c n b).st b.ids).take 1 := by
    show (b.sent ++ if b.awake then work (round c n b).st b.ids else []).foldl (admit (round c n b).st.now) [] = _
    rw [hb.awake, hb.sent, List.nil_append, if_pos rfl]
    exact admit_all (fun t ht => (work_block ht).1)
  rw [← hst] at hsame
  generalize round c n b = m at hst hpool hsame
  have hmi : Inv c m.st := by rw [hst]; exact exec_inv _ hi2
  have hle : ∀ i, load c m.st i ≤ load c n.st i := fun i => by rw [hsame.load i]; exact hload i
  have hpaying : ∀ id, m.st.status id = .paying → n.st.status id = .paying :=
    fun id hp => hpay id ((hsame.paying id).mp hp)
  have hsum : loads c m.st N = loads c s1 N :=
    Nat.le_antisymm (loads_le (fun i => Nat.le_of_eq (hsame.load i)) N)
      (loads_le (fun i => Nat.le_of_eq (hsame.load i).symm) N)
  refine ⟨⟨hmi, fun id hp => h.below id (hpaying id hp), ?_⟩, ?_, ?_, loads_le hle N⟩
  · rw [hpool]
    cases hw : work m.st b.ids with
    | nil => exact .inl rfl
    | cons t ts =>
      have ht : t ∈ work m.st b.ids := by rw [hw]; exact List.mem_cons_self
      obtain ⟨w1, w2, _⟩ := work_block ht
      exact .inr ⟨t, rfl, w2, Nat.le_of_eq w1⟩
  · intro id hid
    rcases hkeep id hid with e | e
    · exact .inl ((hsame.paying id).mpr e)
    · exact .inr (hsame.done id e)
  · intro _
    -- if something is paid and the time has come, the pool is filled
    by_cases hz : loads c m.st N = 0
    · exact .inl hz
    right
    have fill : m.st.unsignedAt ≤ m.st.now → m.pool ≠ [] := by
      intro hdue hemp
      have hall : ∀ id < N, m.st.status id ≠ .paying := by
        intro id hlt hp
        have : (⟨id, m.st.now⟩ : Tx) ∈ work m.st b.ids := by
          unfold work
          rw [if_neg (Nat.not_lt.mpr hdue)]
          exact List.mem_map.2 ⟨id, List.mem_filter.2 ⟨hb.ids id hlt, by simpa using hp⟩, rfl⟩
        rw [hpool] at hemp
        cases hw : work m.st b.ids with
        | nil => rw [hw] at this; cases this
        | cons t ts => rw [hw] at hemp; cases hemp
      have zero : ∀ k, k ≤ N → loads c m.st k = 0 := by
        intro k
        induction k with
        | zero => intro _; rfl
        | succ k ih =>
          intro hk
          have := ih (by omega)
          unfold loads load
          rw [if_neg (hall k (by omega)), this]
      exact hz (zero N (Nat.le_refl _))
    have hnow' : m.st.now = n.st.now + 1 := by rw [hsame.now]; exact hnow
    have hun := hsame.unsignedAt
    unfold wait
    rcases hcase with ⟨hp, hu⟩ | ⟨hp, hu, hlt⟩
    · rw [if_pos hp]
      have hmul : loads c m.st N * (c.interval + 1) ≤ loads c n.st N * (c.interval + 1) :=
        Nat.mul_le_mul_right _ (loads_le hle N)
      by_cases hm : m.pool = []
      · rw [if_pos hm]
        have : ¬ m.st.unsignedAt ≤ m.st.now := fun hd => fill hd hm
        omega
      · rw [if_neg hm]; omega
    · rw [if_neg hp]
      have hmul : (loads c m.st N + 1) * (c.interval + 1) ≤ loads c n.st N * (c.interval + 1) :=
        Nat.mul_le_mul_right _ (by omega)
      rw [Nat.add_mul] at hmul
      by_cases hm : m.pool = []
      · rw [if_pos hm]
        have : ¬ m.st.unsignedAt ≤ m.st.now := fun hd => fill hd hm
        have hnow2 := hsame.now
        omega
      · rw [if_neg hm]; omega

theorem rounds_pay {N : Nat} : ∀ (bs : List Blk) {n : Net}, Good c N n → (∀ b ∈ bs, Calmly N b) →
    (loads c n.st N = 0 ∨ wait c N n ≤ bs.length) → ∀ id, n.st.status id = .paying ∨ n.st.status id = .done →
    (rounds c n bs).st.status id = .done
  | [], n, h, _, hw, id, hid => by
    rcases hid with hp | hd
    · have := load_pos (c := c) hp (h.below id hp)
      rcases hw with e | hw
      · omega
      · simp only [wait, List.length_nil] at hw
        have : loads c n.st N * 1 ≤ loads c n.st N * (c.interval + 1) := Nat.mul_le_mul_left _ (by omega)
        omega
    · exact hd
  | b :: bs, n, h, hb, hw, id, hid => by
    obtain ⟨g1, g2, g3, g4⟩ := round_good h (hb b List.mem_cons_self)
    refine rounds_pay bs g1 (fun b' hb' => hb b' (List.mem_cons_of_mem _ hb')) ?_ id (g2 id hid)
    by_cases hz : loads c n.st N = 0
    · exact .inl (by omega)
    · rcases hw with e | hw
      · exact absurd e hz
      · rcases g3 (by omega) with e | e
        · exact .inl e
        · simp only [List.length_cons] at hw
          exact .inr (by omega)

/-! ## Theorems -/

/-- C241. The workers submit payout calls only for distributions that are being paid, for the current block, and not before the
interval is over. -/
theorem C241_work {s : St} {ids : List Nat} {t : Tx} (h : t ∈ work s ids) :
    t.id ∈ ids ∧ s.status t.id = .paying ∧ t.block = s.now ∧ s.unsignedAt ≤ s.now := by
  obtain ⟨h1, h2, h3⟩ := work_block h
  refine ⟨?_, h2, h1, h3⟩
  unfold work at h
  split at h
  · cases h
  · obtain ⟨i, hi, rfl⟩ := List.mem_map.1 h
    exact (List.mem_filter.1 hi).1

/-- C241, as far as it holds. If after every block a validator's worker runs and nobody else submits payout calls, all
distributions that are being paid get done, and in a number of blocks known beforehand.
Missing: other people's calls, see `C241_refuted`. -/
theorem C241_partial {g s : St} (h : Reach c Any g s) (bs : List Blk)
    (hb : ∀ b ∈ bs, b.awake = true ∧ b.sent = [] ∧ (∀ op ∈ b.calls, Quiet op) ∧ ∀ id < s.next, id ∈ b.ids)
    (hn : needed s s.next * (c.interval + 1) + max 1 (s.unsignedAt - s.now) ≤ bs.length) (id : Nat)
    (hid : s.status id = .paying) : (rounds c ⟨s, []⟩ bs).st.status id = .done := by
  refine rounds_pay (N := s.next) bs (n := ⟨s, []⟩) ⟨h.inv, fun i hi => ?_, .inl rfl⟩
    (fun b hm => ⟨(hb b hm).1, (hb b hm).2.1, (hb b hm).2.2.1, (hb b hm).2.2.2⟩) (.inr ?_) id (.inl hid)
  · refine Nat.lt_of_not_le (fun hle => ?_)
    have := (h.inv.fresh i hle).1
    rw [this] at hi; cases hi
  · have := Nat.mul_le_mul_right (c.interval + 1) (loads_needed (c := c) s s.next)
    simp only [wait, if_true]
    omega

/-- C241. Of all the calls the workers submit after a block the pool takes one: calls for different distributions carry the
same tag. -/
theorem C241_one (s : St) (ids ids' : List Nat) :
    ((work s ids ++ work s ids').foldl (admit s.now) []).length ≤ 1 := by
  rw [admit_all]
  · exact List.length_take_le _ _
  · intro t ht
    rcases List.mem_append.1 ht with h | h <;> exact (work_block h).1

/-- A block for which somebody submits a payout call for distribution `x`, which is not being paid. -/
structure Spammed (x : Nat) (b : Blk) : Prop where
  sent : b.sent = [⟨x, 0⟩]
  calls : ∀ op ∈ b.calls, Quiet op

/-- C241: with one call a block for a distribution that is not being paid, free of charge, anybody keeps all the workers from
ever submitting anything. -/
theorem C241_starved (hI : 0 < c.interval) {x : Nat} : ∀ (bs : List Blk) {s : St}, Inv c s → s.status x ≠ .paying →
    (∀ b ∈ bs, Spammed x b) →
    (rounds c ⟨s, [⟨x, 0⟩]⟩ bs).pool = [⟨x, 0⟩] ∧ (rounds c ⟨s, [⟨x, 0⟩]⟩ bs).st.events = s.events ∧
    ∀ id, (rounds c ⟨s, [⟨x, 0⟩]⟩ bs).st.status id = .paying ↔ s.status id = .paying
  | [], _, _, _, _ => ⟨rfl, rfl, fun _ => Iff.rfl⟩
  | b :: bs, s, hi, hx, hb => by
    have hb0 := hb b List.mem_cons_self
    have hi1 : Inv c { s with now := s.now + 1 } := after_inv (c := c) hi .nextBlock
    have hpay : after c { s with now := s.now + 1 } (.pay x 0) =
        { s with
          now := s.now + 1
          unsignedAt := s.now + 1 + c.interval } := by
      obtain ⟨s', hs⟩ := pay_runs (c := c) { s with now := s.now + 1 } (id := x) (b := 0) (Nat.zero_le _)
      unfold after
      rw [hs]
      rcases (pay_ok hs).2 with ⟨_, rfl⟩ | ⟨h1, _⟩ | ⟨h1, _⟩
      · rfl
      · exact absurd h1 hx
      · exact absurd h1 hx
    have hi2 := after_inv (c := c) hi1 (.pay x 0)
    rw [hpay] at hi2
    have hq := quiet_exec b.calls hi2 hb0.calls
    have hst : (round c ⟨s, [⟨x, 0⟩]⟩ b).st = exec c { s with
          now := s.now + 1
          unsignedAt := s.now + 1 + c.interval } b.calls := by
      show exec c _ _ = _
      rw [exec_append]
      simp only [List.map_cons, List.map_nil, exec, after_next, Tx.op]
      rw [hpay]
    have hpool : (round c ⟨s, [⟨x, 0⟩]⟩ b).pool = [⟨x, 0⟩] := by
      show (b.sent ++ if b.awake then work (round c ⟨s, [⟨x, 0⟩]⟩ b).st b.ids else []).foldl
        (admit (round c ⟨s, [⟨x, 0⟩]⟩ b).st.now) [] = _
      have hw : work (round c ⟨s, [⟨x, 0⟩]⟩ b).st b.ids = [] := by
        unfold work
        rw [hst, if_pos]
        rw [hq.now, hq.unsignedAt]
        dsimp only
        omega
      rw [hw, ite_self, List.append_nil, hb0.sent]
      simp [admit]
    have hm : round c ⟨s, [⟨x, 0⟩]⟩ b = ⟨(round c ⟨s, [⟨x, 0⟩]⟩ b).st, [⟨x, 0⟩]⟩ := by
      generalize round c ⟨s, [⟨x, 0⟩]⟩ b = m at hpool
      obtain ⟨_, _⟩ := m
      simp only at hpool
      rw [hpool]
    rw [← hst] at hq
    obtain ⟨r1, r2, r3⟩ := C241_starved hI bs (s := (round c ⟨s, [⟨x, 0⟩]⟩ b).st) (by rw [hst]; exact exec_inv _ hi2)
      (fun e => hx ((hq.paying x).mp e)) (fun b' hb' => hb b' (List.mem_cons_of_mem _ hb'))
    rw [← hm] at r1 r2 r3
    exact ⟨r1, r2.trans hq.events, fun id => (r3 id).trans (hq.paying id)⟩

/-- C241 is false: distribution 0 has been started and its workers run after every block; one free call a block for distribution
7, which does not exist, keeps it unpaid through any number of blocks. -/
theorem C241_refuted :
    ∃ s, Reach cd Any g0 s ∧ s.status 0 = .paying ∧ payouts 0 10 s.events = [] ∧ Registered s 0 10 ∧
      ∀ k, let m := rounds cd ⟨s, [⟨7, 0⟩]⟩ (List.replicate k ⟨[], [⟨7, 0⟩], true, [0]⟩)
        m.st.status 0 = .paying ∧ payouts 0 10 m.st.events = [] ∧ m.pool = [⟨7, 0⟩] := by
  refine ⟨s2, demo _, by decide +kernel, by decide +kernel, by decide +kernel, fun k => ?_⟩
  obtain ⟨h1, h2, h3⟩ := C241_starved (c := cd) (x := 7) (by decide) (List.replicate k ⟨[], [⟨7, 0⟩], true, [0]⟩)
    (s := s2) (demo _ : Reach cd Any g0 s2).inv (by decide +kernel) (fun b hb => by
      rw [List.eq_of_mem_replicate hb]
      exact ⟨rfl, fun _ h => nomatch h⟩)
  dsimp only
  exact ⟨(h3 0).mpr (by decide +kernel), by rw [h2]; decide +kernel, h1⟩

/-- Two distributions are being paid; the workers finish both, one after the other, in far fewer than the blocks allowed. -/
def two : St := exec cd g0 (fill ++ [.start (some 9) 0, .create (some 9), .register (some 9) 1 [(12, 5)], .trigger (some 9) 1,
  .start (some 9) 1])

def lazy : Blk := ⟨[.mint 2 55 1], [], true, [1, 0]⟩

/-- Non-vacuity of C241. -/
example : Reach cd Any g0 two ∧ two.status 0 = .paying ∧ two.status 1 = .paying ∧ two.next = 2 ∧ needed two two.next = 8 ∧
    work two [1, 0] = [⟨1, 0⟩, ⟨0, 0⟩] ∧ (rounds cd ⟨two, []⟩ [lazy]).pool = [⟨1, 1⟩] ∧
    (rounds cd ⟨two, []⟩ (List.replicate 14 lazy)).st.status 1 = .done ∧
    (rounds cd ⟨two, []⟩ (List.replicate 14 lazy)).st.status 0 = .paying ∧
    (rounds cd ⟨two, []⟩ (List.replicate 49 lazy)).st.status 0 = .done :=
  ⟨demo _, by decide +kernel⟩

example : (rounds cd ⟨two, []⟩ (List.replicate 49 lazy)).st.status 0 = .done := by
  have hr : Reach cd Any g0 two := demo _
  have hn : needed two two.next * (cd.interval + 1) + max 1 (two.unsignedAt - two.now) ≤ (List.replicate 49 lazy).length := by
    decide +kernel
  refine C241_partial hr (List.replicate 49 lazy) (fun b hb => ?_) hn 0 (by decide +kernel)
  rw [List.eq_of_mem_replicate hb]
  refine ⟨rfl, rfl, fun op hop => ?_, by decide +kernel⟩
  rw [List.mem_singleton.1 hop]
  trivial

end Verif.Vortex
