import Verif.Crowdsale.Demo

/-!
# Who pays the contributors: off-chain workers (C242)

The payout call is unsigned and has no arguments. After every block the off-chain workers submit one if a sale is waiting to be
paid, unless one was executed less than an interval ago. Line numbers refer to /repo/pallet/crowdsale/src/lib.rs.
-/

namespace Verif.Crowdsale

/-! ## Model -/

/-- The chain, the block number kept in `NextUnsignedAt` (177, 655), and whether a payout call waits in the pool. -/
structure Net where
  st : St
  due : Nat
  waiting : Bool

/-- A call in a block; a payout call that succeeds also sets `NextUnsignedAt` (654-655). -/
def dispatch (c : Cfg) (interval : Nat) (n : Net) (op : Op) : Net :=
  match step c n.st op with
  | .ok s => { n with
      st := s
      due := if op = .distribute then s.now + interval else n.due }
  | .error _ => n

/-- What happens at one block: the calls in it, other people's payout calls among them, and whether any node runs its worker. -/
structure Blk where
  calls : List Op
  awake : Bool

/-- 289-312 `offchain_worker` after a block, and 315-334 `validate_unsigned`: a payout call enters the pool. Only the log
complains if the node is no validator. All payout calls are the same, so the pool holds one at most. -/
def work (n : Net) (awake : Bool) : Net :=
  { n with waiting := awake && !(decide (n.st.now < n.due)) && !n.st.queue.isEmpty }

/-- One block: sales are closed, the payout call in the pool is included, then the other calls; then the workers run. The
pool is taken to be emptied into the next block. -/
def round (c : Cfg) (interval : Nat) (n : Net) (b : Blk) : Net :=
  let n1 := dispatch c interval n .block
  let n2 := if n.waiting then dispatch c interval n1 .distribute else n1
  work (b.calls.foldl (dispatch c interval) n2) b.awake

/-- A row of blocks. -/
def rounds (c : Cfg) (interval : Nat) (n : Net) (bs : List Blk) : Net := bs.foldl (round c interval) n

/-! ## Specification -/

/-- How many payout calls there may be before sale `id` is over: one for every contributor and every sale up to it in the
queue. -/
def ahead (keys : Nat → List Acct) (id : Nat) : List Nat → Nat
  | [] => 0
  | j :: q => (keys j).length + 1 + if j = id then 0 else ahead keys id q

/-- A call that nobody signs for a vault and that burns nothing of a vault; blocks pass only as `round` says. -/
def Fair (c : Cfg) (op : Op) : Prop := (∀ s, Calm c s op) ∧ op ≠ .block

/-! ## Proof -/

theorem ahead_append {keys : Nat → List Acct} {id : Nat} {t : List Nat} : ∀ {q : List Nat}, id ∈ q →
    ahead keys id (q ++ t) = ahead keys id q
  | j :: q, h => by
    simp only [List.cons_append, ahead]
    by_cases e : j = id
    · rw [if_pos e, if_pos e]
    · rw [if_neg e, if_neg e, ahead_append ((List.mem_cons.1 h).resolve_left (fun x => e x.symm))]

theorem ahead_filter {keys : Nat → List Acct} {id x : Nat} (hx : id ≠ x) : ∀ (q : List Nat),
    ahead keys id (q.filter (· ≠ x)) ≤ ahead keys id q
  | [] => Nat.le_refl _
  | j :: q => by
    have ih := ahead_filter (keys := keys) hx q
    by_cases e : j = x
    · rw [List.filter_cons_of_neg (by simpa using e)]
      subst e
      simp only [ahead, if_neg (fun e : j = id => hx e.symm)]
      omega
    · rw [List.filter_cons_of_pos (by simpa using e)]
      simp only [ahead]
      split <;> omega

theorem ahead_keys {keys keys' : Nat → List Acct} {id : Nat} : ∀ {q : List Nat},
    (∀ j ∈ q, (keys' j).length ≤ (keys j).length) → ahead keys' id q ≤ ahead keys id q
  | [], _ => Nat.le_refl _
  | j :: q, h => by
    have h1 := h j List.mem_cons_self
    have ih := ahead_keys (id := id) (q := q) (fun i hi => h i (List.mem_cons_of_mem _ hi))
    simp only [ahead]
    split <;> omega

/-- What a step does to the queue and to the contributors of the sales in it. -/
structure Moves (s s' : St) : Prop where
  queue : (∃ t, s'.queue = s.queue ++ t) ∨ ∃ x, s'.queue = s.queue.filter (· ≠ x)
  keys : ∀ j ∈ s.queue, (s'.keys j).length ≤ (s.keys j).length

theorem Moves.same {s s' : St} (h1 : s'.queue = s.queue) (h2 : s'.keys = s.keys) : Moves s s' :=
  ⟨.inl ⟨[], by rw [h1, List.append_nil]⟩, fun j _ => by rw [h2]⟩

/-- Only appending, and no contributor touched. -/
structure Grows (s s' : St) : Prop where
  queue : ∃ t, s'.queue = s.queue ++ t
  keys : s'.keys = s.keys

theorem Grows.refl (s : St) : Grows s s := ⟨⟨[], by rw [List.append_nil]⟩, rfl⟩

theorem Grows.trans {s s1 s2 : St} (h : Grows s s1) (g : Grows s1 s2) : Grows s s2 := by
  obtain ⟨⟨t, h1⟩, h2⟩ := h
  obtain ⟨⟨u, g1⟩, g2⟩ := g
  exact ⟨⟨t ++ u, by rw [g1, h1, List.append_assoc]⟩, g2.trans h2⟩

theorem Grows.moves {s s' : St} (h : Grows s s') : Moves s s' := ⟨.inl h.queue, fun j _ => by rw [h.keys]⟩

theorem closeOne_grows (c : Cfg) (s : St) (id : Nat) : Grows s (closeOne c s id) := by
  have same : ∀ s' : St, s'.queue = s.queue → s'.keys = s.keys → Grows s s' :=
    fun s' h1 h2 => ⟨⟨[], by rw [h1, List.append_nil]⟩, h2⟩
  unfold closeOne
  split
  · exact .refl s
  · split
    · split
      · exact .refl s
      · split
        · exact same _ rfl rfl
        · split
          · exact same _ rfl rfl
          · split
            · exact same _ rfl rfl
            · split
              · exact ⟨⟨[id], rfl⟩, rfl⟩
              · exact same _ rfl rfl
    · exact .refl s

theorem closeAll_grows (c : Cfg) : ∀ (l : List Nat) (s : St), Grows s (closeAll c s l)
  | [], s => .refl s
  | id :: l, s => (closeOne_grows c s id).trans (closeAll_grows c l _)

theorem payLoop_keys {i : Sale} {id m : Nat} : ∀ (n : Nat) (s : St) (t : Nat),
    (∀ j, j ≠ id → (payLoop i id m n s t).1.keys j = s.keys j) ∧
    ((payLoop i id m n s t).1.keys id).length ≤ (s.keys id).length
  | 0, s, t => ⟨fun _ _ => rfl, Nat.le_refl _⟩
  | n + 1, s, t => by
    unfold payLoop
    split
    · exact ⟨fun _ _ => rfl, Nat.le_refl _⟩
    · rename_i w ks hk
      dsimp only
      have hd : (∀ j, j ≠ id → (dropKey s id w).keys j = s.keys j) ∧
          ((dropKey s id w).keys id).length ≤ (s.keys id).length := by
        refine ⟨fun j hj => upd_ne _ _ hj, ?_⟩
        show (upd s.keys id _ id).length ≤ _
        rw [upd_same]
        exact List.length_filter_le _ _
      split
      · obtain ⟨r1, r2⟩ := payLoop_keys (i := i) (id := id) (m := m) n (dropKey s id w) t
        exact ⟨fun j hj => (r1 j hj).trans (hd.1 j hj), Nat.le_trans r2 hd.2⟩
      · rename_i s2 a h
        obtain ⟨L, rfl⟩ := payVouchers_frame h
        obtain ⟨r1, r2⟩ := payLoop_keys (i := i) (id := id) (m := m) n
          { dropKey s id w with
            ledger := L
            events := .claimed id w a :: (dropKey s id w).events } (satAdd t a)
        exact ⟨fun j hj => (r1 j hj).trans (hd.1 j hj), Nat.le_trans r2 hd.2⟩

theorem filter_head {x : Nat} {q : List Nat} (h : (x :: q).Nodup) : (x :: q).filter (· ≠ x) = q := by
  rw [List.filter_cons_of_neg (by simp)]
  obtain ⟨h1, _⟩ := List.nodup_cons.1 h
  refine List.filter_eq_self.2 (fun a ha => ?_)
  simp only [ne_eq, decide_not, Bool.not_eq_eq_eq_not, Bool.not_true, decide_eq_false_iff_not]
  rintro rfl
  exact h1 ha

theorem step_moves {c : Cfg} (hl : Limits c) {g s s' : St} (h : Reach c (Calm c) g s) {op : Op}
    (hs : step c s op = .ok s') : Moves s s' := by
  have H := reach_inv hl h
  cases op with
  | launch who pay coll price dur v =>
    obtain ⟨_, _, _, _, _, _, _, _, _, _, _, _, _, _, rfl⟩ := launch_ok hs
    exact .same rfl rfl
  | enable who id => obtain ⟨_, _, _, _, _, rfl⟩ := enable_ok hs; exact .same rfl rfl
  | participate who id x =>
    obtain ⟨i, b, L, _, hi, hb, _, rfl⟩ := participate_ok hs
    refine ⟨.inl ⟨[], by rw [List.append_nil]⟩, fun j hj => ?_⟩
    have hne : j ≠ id := by
      rintro rfl
      obtain ⟨i', hi', b', t', hp⟩ := (C94_queue hl h).mp hj
      rw [hi] at hi'; cases hi'
      rw [hb] at hp; cases hp
    show (upd s.keys id _ j).length ≤ _
    rw [upd_ne _ _ hne]
  | distribute =>
    obtain ⟨id, rest, i, b, t, k, m, hq, hi, _, _, _, hr⟩ := distribute_ok hs
    obtain ⟨k1, k2⟩ := payLoop_keys (i := i) (id := id) (m := m) c.maxPay s t
    have hk : ∀ j, ((payLoop i id m c.maxPay s t).1.keys j).length ≤ (s.keys j).length := by
      intro j
      by_cases e : j = id
      · rw [e]; exact k2
      · rw [k1 j e]
    have hn := H.nodupQ
    rw [hq] at hn
    rcases hr with ⟨_, rfl⟩ | ⟨_, rfl⟩
    · exact ⟨.inr ⟨id, by rw [hq, filter_head hn]⟩, fun j _ => hk j⟩
    · refine ⟨.inl ⟨[], ?_⟩, fun j _ => hk j⟩
      rw [List.append_nil]
      exact (payLoop_frame (i := i) (id := id) (m := m) c.maxPay s t).2.2.2.2
  | claim who id =>
    obtain ⟨i, b, t, k, m, s2, n, _, _, _, _, _, hp, hr⟩ := claim_ok hs
    obtain ⟨L, rfl⟩ := payVouchers_frame hp
    have hk : ∀ j, ((dropKey s id who).keys j).length ≤ (s.keys j).length := by
      intro j
      show (upd s.keys id _ j).length ≤ _
      by_cases e : j = id
      · rw [e, upd_same]; exact List.length_filter_le _ _
      · rw [upd_ne _ _ e]
    rcases hr with ⟨_, rfl⟩ | ⟨_, rfl⟩
    · exact ⟨.inr ⟨id, rfl⟩, fun j _ => hk j⟩
    · exact ⟨.inl ⟨[], by rw [List.append_nil]; rfl⟩, fun j _ => hk j⟩
  | redeem who id q => obtain ⟨_, _, _, _, _, _, _, _, _, _, _, rfl⟩ := redeem_ok hs; exact .same rfl rfl
  | proxy who id call =>
    obtain ⟨_, s1, _, _, _, hr, rfl⟩ := proxy_ok hs
    obtain ⟨_, _, _, rfl, _⟩ := run_frame hr
    exact .same rfl rfl
  | force id => obtain ⟨_, _, _, _, rfl⟩ := force_ok hs; exact ⟨.inl ⟨[id], rfl⟩, fun _ _ => Nat.le_refl _⟩
  | block =>
    cases hs
    obtain ⟨g1, g2⟩ := closeAll_grows c (s.ending (s.now + 1)) { s with
      now := s.now + 1
      ending := upd s.ending (s.now + 1) [] }
    exact Grows.moves ⟨g1, g2⟩
  | act who call =>
    obtain ⟨_, _, _, rfl, _⟩ := run_frame (show run c s who call = .ok s' from hs)
    exact .same rfl rfl

/-- All of a sale's contributors have been handled. -/
def Over (s : St) (id : Nat) : Prop := ∃ i, s.sale id = some i ∧ i.isOver

theorem over_step {c : Cfg} (hl : Limits c) {g s s' : St} (h : Reach c (Calm c) g s) {op : Op}
    (hs : step c s op = .ok s') {id : Nat} (ho : Over s id) : Over s' id := by
  obtain ⟨i, hi, b, hb⟩ := ho
  obtain ⟨j, hj, hL⟩ := (step_aged hs ((reach_inv hl h).blank _ (Nat.le_refl _)).1).1.1 id i hi
  have := hL.stage
  rw [hb] at this
  refine ⟨j, hj, ?_⟩
  cases hst : j.status with
  | ended b => exact ⟨b, hst⟩
  | _ => rw [hst] at this; simp [stage] at this

/-- A step leaves the sale in the queue, not further back, or ends it. -/
theorem queue_step {c : Cfg} (hl : Limits c) {g s s' : St} (h : Reach c (Calm c) g s) {op : Op} (hc : Calm c s op)
    (hs : step c s op = .ok s') {id : Nat} (hid : id ∈ s.queue) :
    Over s' id ∨ (id ∈ s'.queue ∧ ahead s'.keys id s'.queue ≤ ahead s.keys id s.queue) := by
  have h' : Reach c (Calm c) g s' := .step h hc hs
  obtain ⟨i, hi, b, t, hb⟩ := (C94_queue hl h).mp hid
  obtain ⟨j, hj, hL⟩ := (step_aged hs ((reach_inv hl h).blank _ (Nat.le_refl _)).1).1.1 id i hi
  have hst := hL.stage
  rw [hb] at hst
  by_cases hq : id ∈ s'.queue
  · refine .inr ⟨hq, ?_⟩
    have M := step_moves hl h hs
    have h1 := ahead_keys (id := id) M.keys
    rcases M.queue with ⟨t, e⟩ | ⟨x, e⟩
    · rw [e, ahead_append hid]; exact h1
    · have hx : id ≠ x := by
        rintro rfl
        rw [e] at hq
        simpa using (List.mem_filter.1 hq).2
      rw [e]
      exact Nat.le_trans (ahead_filter hx _) h1
  · left
    refine ⟨j, hj, ?_⟩
    cases hst' : j.status with
    | ended b => exact ⟨b, hst'⟩
    | distributing b' t' => exact absurd ((C94_queue hl h').mpr ⟨j, hj, b', t', hst'⟩) hq
    | _ => rw [hst'] at hst; simp [stage] at hst

/-- A payout call brings every sale in the queue forward. -/
theorem distribute_ahead {c : Cfg} (hl : Limits c) (hm : 0 < c.maxPay) {g s s' : St} (h : Reach c (Calm c) g s)
    (hs : step c s .distribute = .ok s') {id : Nat} (hid : id ∈ s.queue) :
    Over s' id ∨ (id ∈ s'.queue ∧ ahead s'.keys id s'.queue < ahead s.keys id s.queue) := by
  have hc : Calm c s .distribute := ⟨fun _ hw => (nomatch hw), fun _ hw => (nomatch hw)⟩
  rcases queue_step hl h hc hs hid with ho | ⟨hq, _⟩
  · exact .inl ho
  right
  refine ⟨hq, ?_⟩
  cases hqs : s.queue with
  | nil => rw [hqs] at hid; cases hid
  | cons x rest =>
    obtain ⟨s1, i, j, e1, _, _, e4, e5, e6⟩ := C94_progress hl h hqs
    rw [hs] at e1
    cases e1
    have M := step_moves hl h hs
    have hN := (reach_inv hl h).nodupQ
    rw [hqs] at hN
    obtain ⟨n1, _⟩ := List.nodup_cons.1 hN
    by_cases hk : s'.keys x = []
    · obtain ⟨_, hr⟩ := e5 hk
      rw [hr] at hq ⊢
      have hne : ¬ x = id := by rintro rfl; exact n1 hq
      have := ahead_keys (id := id) (q := rest) (fun j hj => M.keys j (by rw [hqs]; exact List.mem_cons_of_mem _ hj))
      simp only [ahead, if_neg hne]
      omega
    · obtain ⟨_, hr⟩ := e6 hk
      rw [hr, hqs]
      have hlt : (s'.keys x).length < (s.keys x).length := by
        have : s.keys x ≠ [] := by intro e; rw [e4, e] at hk; simp at hk
        have := List.length_pos_iff.mpr this
        rw [e4, List.length_drop]
        omega
      have := ahead_keys (id := id) (q := rest) (fun j hj => M.keys j (by rw [hqs]; exact List.mem_cons_of_mem _ hj))
      simp only [ahead]
      split <;> omega

theorem dispatch_reach {c : Cfg} {iv : Nat} {g : St} {n : Net} {op : Op} (h : Reach c (Calm c) g n.st)
    (hc : Calm c n.st op) : Reach c (Calm c) g (dispatch c iv n op).st := by
  unfold dispatch
  cases he : step c n.st op with
  | ok s => exact .step h hc he
  | error _ => exact h

/-- Calls of a block: the sale gets over, or nothing relevant happens, or a payout call brings it forward. -/
def Nearer (iv id : Nat) (n n' : Net) : Prop :=
  n'.st.now = n.st.now ∧ (Over n'.st id ∨ (id ∈ n'.st.queue ∧
    ((ahead n'.st.keys id n'.st.queue ≤ ahead n.st.keys id n.st.queue ∧ n'.due = n.due) ∨
     (ahead n'.st.keys id n'.st.queue < ahead n.st.keys id n.st.queue ∧ n'.due = n.st.now + iv))))

theorem step_now {c : Cfg} {s s' : St} {op : Op} (hb : op ≠ .block) (hs : step c s op = .ok s') : s'.now = s.now := by
  cases op with
  | launch who pay coll price dur v => obtain ⟨_, _, _, _, _, _, _, _, _, _, _, _, _, _, rfl⟩ := launch_ok hs; rfl
  | enable who id => obtain ⟨_, _, _, _, _, rfl⟩ := enable_ok hs; rfl
  | participate who id x => obtain ⟨_, _, _, _, _, _, _, rfl⟩ := participate_ok hs; rfl
  | distribute =>
    obtain ⟨id, rest, i, b, t, k, m, _, _, _, _, _, hr⟩ := distribute_ok hs
    have := (payLoop_frame (i := i) (id := id) (m := m) c.maxPay s t).2.2.2.1
    rcases hr with ⟨_, rfl⟩ | ⟨_, rfl⟩ <;> exact this
  | claim who id =>
    obtain ⟨i, b, t, k, m, s2, n, _, _, _, _, _, hp, hr⟩ := claim_ok hs
    obtain ⟨L, rfl⟩ := payVouchers_frame hp
    rcases hr with ⟨_, rfl⟩ | ⟨_, rfl⟩ <;> rfl
  | redeem who id q => obtain ⟨_, _, _, _, _, _, _, _, _, _, _, rfl⟩ := redeem_ok hs; rfl
  | proxy who id call =>
    obtain ⟨_, s1, _, _, _, hr, rfl⟩ := proxy_ok hs
    obtain ⟨_, _, _, rfl, _⟩ := run_frame hr
    rfl
  | force id => obtain ⟨_, _, _, _, rfl⟩ := force_ok hs; rfl
  | block => exact absurd rfl hb
  | act who call =>
    obtain ⟨_, _, _, rfl, _⟩ := run_frame (show run c s who call = .ok s' from hs)
    rfl

theorem dispatch_nearer {c : Cfg} (hl : Limits c) (hm : 0 < c.maxPay) {iv : Nat} {g : St} {n : Net} {op : Op} {id : Nat}
    (h : Reach c (Calm c) g n.st) (hc : Calm c n.st op) (hb : op ≠ .block) (hid : id ∈ n.st.queue) :
    Nearer iv id n (dispatch c iv n op) := by
  unfold dispatch
  cases he : step c n.st op with
  | error _ => exact ⟨rfl, .inr ⟨hid, .inl ⟨Nat.le_refl _, rfl⟩⟩⟩
  | ok s =>
    have hnow := step_now hb he
    refine ⟨hnow, ?_⟩
    by_cases e : op = .distribute
    · subst e
      rcases distribute_ahead hl hm h he hid with ho | ⟨h1, h2⟩
      · exact .inl ho
      · exact .inr ⟨h1, .inr ⟨h2, by simp only [if_true]; rw [hnow]⟩⟩
    · rcases queue_step hl h hc he hid with ho | ⟨h1, h2⟩
      · exact .inl ho
      · exact .inr ⟨h1, .inl ⟨h2, by simp only [if_neg e]⟩⟩

theorem over_dispatch {c : Cfg} (hl : Limits c) {iv : Nat} {g : St} {n : Net} {op : Op} {id : Nat}
    (h : Reach c (Calm c) g n.st) (ho : Over n.st id) : Over (dispatch c iv n op).st id := by
  unfold dispatch
  cases he : step c n.st op with
  | ok s => exact over_step hl h he ho
  | error _ => exact ho

theorem calls_nearer {c : Cfg} (hl : Limits c) (hm : 0 < c.maxPay) {iv : Nat} {g : St} {id : Nat} : ∀ (ops : List Op) {n : Net},
    Reach c (Calm c) g n.st → (∀ op ∈ ops, Fair c op) →
    Reach c (Calm c) g (ops.foldl (dispatch c iv) n).st ∧
    (Over n.st id → Over (ops.foldl (dispatch c iv) n).st id) ∧
    (id ∈ n.st.queue → Nearer iv id n (ops.foldl (dispatch c iv) n))
  | [], n, h, _ => ⟨h, fun ho => ho, fun hid => ⟨rfl, .inr ⟨hid, .inl ⟨Nat.le_refl _, rfl⟩⟩⟩⟩
  | op :: ops, n, h, hf => by
    have f0 := hf op List.mem_cons_self
    obtain ⟨r1, r2, r3⟩ := calls_nearer hl hm (iv := iv) (id := id) ops (n := dispatch c iv n op) (dispatch_reach h (f0.1 _))
      (fun o ho => hf o (List.mem_cons_of_mem _ ho))
    refine ⟨r1, fun ho => r2 (over_dispatch hl h ho), fun hid => ?_⟩
    obtain ⟨a1, a2⟩ := dispatch_nearer hl hm (iv := iv) h (f0.1 _) f0.2 hid
    rw [List.foldl_cons]
    rcases a2 with ho | ⟨b1, b2⟩
    · refine ⟨?_, .inl (r2 ho)⟩
      exact (foldl_now ops _ (fun o ho => (hf o (List.mem_cons_of_mem _ ho)).2)).trans a1
    · obtain ⟨c1, c2⟩ := r3 b1
      refine ⟨c1.trans a1, ?_⟩
      rcases c2 with ho | ⟨d1, d2⟩
      · exact .inl ho
      · refine .inr ⟨d1, ?_⟩
        rw [a1] at d2
        rcases b2 with ⟨x1, x2⟩ | ⟨x1, x2⟩ <;> rcases d2 with ⟨y1, y2⟩ | ⟨y1, y2⟩
        · exact .inl ⟨Nat.le_trans y1 x1, y2.trans x2⟩
        · exact .inr ⟨Nat.lt_of_lt_of_le y1 x1, y2⟩
        · exact .inr ⟨Nat.lt_of_le_of_lt y1 x1, y2.trans x2⟩
        · exact .inr ⟨Nat.lt_trans y1 x1, y2⟩
where
  foldl_now : ∀ (ops : List Op) (n : Net), (∀ op ∈ ops, op ≠ .block) →
      (ops.foldl (dispatch c iv) n).st.now = n.st.now
    | [], _, _ => rfl
    | op :: ops, n, hb => by
      rw [List.foldl_cons, foldl_now ops _ (fun o ho => hb o (List.mem_cons_of_mem _ ho))]
      unfold dispatch
      cases he : step c n.st op with
      | ok s => exact step_now (hb op List.mem_cons_self) he
      | error _ => rfl

/-- Blocks until the sale is over. -/
def wait (iv id : Nat) (n : Net) : Nat :=
  ahead n.st.keys id n.st.queue * (iv + 1) + if n.waiting then 0 else max 1 (n.due - n.st.now)

theorem round_nearer {c : Cfg} (hl : Limits c) (hm : 0 < c.maxPay) {iv : Nat} {g : St} {n : Net} {b : Blk} {id : Nat}
    (h : Reach c (Calm c) g n.st) (hf : ∀ op ∈ b.calls, Fair c op) :
    Reach c (Calm c) g (round c iv n b).st ∧ (Over n.st id → Over (round c iv n b).st id) ∧
    (b.awake = true → id ∈ n.st.queue → Over (round c iv n b).st id ∨
      (id ∈ (round c iv n b).st.queue ∧ wait iv id (round c iv n b) < wait iv id n)) := by
  have cb : ∀ s, Calm c s .block := fun s => ⟨fun _ hw => (nomatch hw), fun _ hw => (nomatch hw)⟩
  have cd : ∀ s, Calm c s .distribute := fun s => ⟨fun _ hw => (nomatch hw), fun _ hw => (nomatch hw)⟩
  have hb1 : step c n.st .block = .ok (block c n.st) := rfl
  let n1 : Net := dispatch c iv n .block
  have e1 : n1 = { n with st := block c n.st } := by
    show dispatch c iv n .block = _
    unfold dispatch
    rw [hb1]
    simp
  have h1 : Reach c (Calm c) g n1.st := dispatch_reach h (cb _)
  let n2 : Net := if n.waiting then dispatch c iv n1 .distribute else n1
  have h2 : Reach c (Calm c) g n2.st := by
    show Reach c (Calm c) g (if n.waiting then _ else _ : Net).st
    split
    · exact dispatch_reach h1 (cd _)
    · exact h1
  obtain ⟨h3, o3, k3⟩ := calls_nearer hl hm (iv := iv) (id := id) b.calls (n := n2) h2 hf
  have o2 : Over n.st id → Over n2.st id := by
    intro ho
    have o1 : Over n1.st id := over_dispatch hl h ho
    show Over (if n.waiting then _ else _ : Net).st id
    split
    · exact over_dispatch hl h1 o1
    · exact o1
  refine ⟨h3, fun ho => o3 (o2 ho), fun hawake hid => ?_⟩
  let m := b.calls.foldl (dispatch c iv) n2
  have hround : round c iv n b = work m b.awake := rfl
  show Over m.st id ∨ (id ∈ m.st.queue ∧ wait iv id (work m b.awake) < wait iv id n)
  -- the closing of sales
  have hn1 : n1.st = block c n.st := by rw [e1]
  have hd1 : n1.due = n.due := by rw [e1]
  rcases queue_step hl h (cb _) hb1 hid with ho | ⟨q1, a1⟩
  · rw [← hn1] at ho
    left
    refine o3 ?_
    show Over (if n.waiting then _ else _ : Net).st id
    split
    · exact over_dispatch hl h1 ho
    · exact ho
  rw [← hn1] at q1 a1
  have now1 : n1.st.now = n.st.now + 1 := by rw [hn1]; exact (block_now c n.st).1
  -- the payout call of the pool
  have key : Over n2.st id ∨ (id ∈ n2.st.queue ∧ n2.st.now = n.st.now + 1 ∧
      ((n.waiting = false ∧ ahead n2.st.keys id n2.st.queue ≤ ahead n.st.keys id n.st.queue ∧ n2.due = n.due) ∨
       (ahead n2.st.keys id n2.st.queue < ahead n.st.keys id n.st.queue ∧ n2.due = n2.st.now + iv))) := by
    cases hw : n.waiting with
    | false =>
      have e2 : n2 = n1 := by show (if n.waiting then _ else _ : Net) = _; rw [hw]; rfl
      rw [e2]
      exact .inr ⟨q1, now1, .inl ⟨rfl, a1, hd1⟩⟩
    | true =>
      have e2 : n2 = dispatch c iv n1 .distribute := by show (if n.waiting then _ else _ : Net) = _; rw [hw]; rfl
      have hok : ∃ s', step c n1.st .distribute = .ok s' := by
        cases hq : n1.st.queue with
        | nil => rw [hq] at q1; cases q1
        | cons x rest =>
          obtain ⟨s', _, _, hs, _⟩ := C94_progress hl h1 hq
          exact ⟨s', hs⟩
      obtain ⟨s', hs⟩ := hok
      have e3 : n2 = { n1 with
          st := s'
          due := s'.now + iv } := by
        rw [e2]
        unfold dispatch
        rw [hs]
        simp
      have hnow := step_now (by decide) hs
      rw [e3]
      rcases distribute_ahead hl hm h1 hs q1 with ho | ⟨x1, x2⟩
      · exact .inl ho
      · exact .inr ⟨x1, hnow.trans now1, .inr ⟨Nat.lt_of_lt_of_le x2 a1, rfl⟩⟩
  rcases key with ho | ⟨q2, now2, a2⟩
  · exact .inl (o3 ho)
  obtain ⟨now3, r3⟩ := k3 q2
  rcases r3 with ho | ⟨q3, a3⟩
  · exact .inl ho
  refine .inr ⟨q3, ?_⟩
  have hnow : m.st.now = n.st.now + 1 := by rw [← now2]; exact now3
  -- together: nothing paid and the pool was empty, or paid at least once
  have total : (n.waiting = false ∧ ahead m.st.keys id m.st.queue ≤ ahead n.st.keys id n.st.queue ∧ m.due = n.due) ∨
      (ahead m.st.keys id m.st.queue < ahead n.st.keys id n.st.queue ∧ m.due = m.st.now + iv) := by
    rcases a2 with ⟨w, x1, x2⟩ | ⟨x1, x2⟩ <;> rcases a3 with ⟨y1, y2⟩ | ⟨y1, y2⟩
    · exact .inl ⟨w, Nat.le_trans y1 x1, y2.trans x2⟩
    · exact .inr ⟨Nat.lt_of_lt_of_le y1 x1, by rw [hnow, ← now2]; exact y2⟩
    · exact .inr ⟨Nat.lt_of_le_of_lt y1 x1, by rw [hnow, ← now2]; exact y2.trans x2⟩
    · exact .inr ⟨Nat.lt_trans y1 x1, by rw [hnow, ← now2]; exact y2⟩
  have hne : m.st.queue.isEmpty = false := by
    cases hq : m.st.queue with
    | nil => rw [hq] at q3; cases q3
    | cons _ _ => rfl
  have hwork : (work m b.awake).waiting = !(decide (m.st.now < m.due)) := by
    show (b.awake && !(decide (m.st.now < m.due)) && !m.st.queue.isEmpty) = _
    rw [hawake, hne]
    simp
  show ahead m.st.keys id m.st.queue * (iv + 1) + (if (work m b.awake).waiting then 0 else max 1 (m.due - m.st.now)) < _
  unfold wait
  rw [hwork]
  rcases total with ⟨w, x1, x2⟩ | ⟨x1, x2⟩
  · rw [w]
    have := Nat.mul_le_mul_right (iv + 1) x1
    by_cases hd : m.st.now < m.due
    · simp only [hd, decide_true, Bool.not_true, Bool.false_eq_true, if_false]
      omega
    · simp only [hd, decide_false, Bool.not_false, if_true, Bool.false_eq_true, if_false]
      omega
  · have := Nat.mul_le_mul_right (iv + 1) (show ahead m.st.keys id m.st.queue + 1 ≤ ahead n.st.keys id n.st.queue by omega)
    rw [Nat.add_mul] at this
    by_cases hd : m.st.now < m.due
    · simp only [hd, decide_true, Bool.not_true, Bool.false_eq_true, if_false]
      split <;> omega
    · simp only [hd, decide_false, Bool.not_false, if_true]
      split <;> omega

theorem rounds_over {c : Cfg} (hl : Limits c) (hm : 0 < c.maxPay) {iv : Nat} {g : St} {id : Nat} : ∀ (bs : List Blk) {n : Net},
    Reach c (Calm c) g n.st → (∀ b ∈ bs, b.awake = true ∧ ∀ op ∈ b.calls, Fair c op) →
    (Over n.st id ∨ (id ∈ n.st.queue ∧ wait iv id n ≤ bs.length)) →
    Reach c (Calm c) g (rounds c iv n bs).st ∧ Over (rounds c iv n bs).st id
  | [], n, h, _, hw => by
    refine ⟨h, ?_⟩
    rcases hw with ho | ⟨hq, hw⟩
    · exact ho
    · exfalso
      have : 0 < ahead n.st.keys id n.st.queue := by
        cases hx : n.st.queue with
        | nil => rw [hx] at hq; cases hq
        | cons j q => unfold ahead; omega
      have := Nat.mul_le_mul_left (ahead n.st.keys id n.st.queue) (show 1 ≤ iv + 1 by omega)
      simp only [wait, List.length_nil] at hw
      omega
  | b :: bs, n, h, hb, hw => by
    obtain ⟨h1, h2, h3⟩ := round_nearer hl hm (iv := iv) (b := b) (id := id) h (hb b List.mem_cons_self).2
    refine rounds_over hl hm bs h1 (fun b' hb' => hb b' (List.mem_cons_of_mem _ hb')) ?_
    rcases hw with ho | ⟨hq, hw⟩
    · exact .inl (h2 ho)
    · rcases h3 (hb b List.mem_cons_self).1 hq with ho | ⟨q, w⟩
      · exact .inl ho
      · simp only [List.length_cons] at hw
        exact .inr ⟨q, by omega⟩

/-! ## Theorems -/

/-- C242. A sale that is being paid gets over by itself: if after every block some node runs its worker, all its contributors
are handled within a number of blocks known beforehand, whatever calls the blocks contain, other people's payout calls
included. -/
theorem C242 {c : Cfg} (hl : Limits c) (hm : 0 < c.maxPay) {g s : St} (h : Reach c (Calm c) g s) (iv due : Nat) (bs : List Blk)
    (hb : ∀ b ∈ bs, b.awake = true ∧ ∀ op ∈ b.calls, Fair c op) {id : Nat} {i : Sale} (hi : s.sale id = some i)
    (hp : i.paying) (hn : ahead s.keys id s.queue * (iv + 1) + max 1 (due - s.now) ≤ bs.length) :
    ∃ j, (rounds c iv ⟨s, due, false⟩ bs).st.sale id = some j ∧ j.isOver ∧
      (rounds c iv ⟨s, due, false⟩ bs).st.keys id = [] := by
  have hq := (C94_queue hl h).mpr ⟨i, hi, hp⟩
  obtain ⟨hr, j, hj, ho⟩ := rounds_over hl hm (iv := iv) (id := id) bs (n := ⟨s, due, false⟩) h hb
    (.inr ⟨hq, by simpa [wait] using hn⟩)
  refine ⟨j, hj, ho, ?_⟩
  obtain ⟨k, m, K⟩ := (reach_inv hl hr).sales id j hj
  obtain ⟨b, hb⟩ := ho
  have hph := K.phase
  simp only [Phase, hb] at hph
  exact hph.1

/-- C242: the workers submit a payout call only if a sale is waiting to be paid and the interval is over, and then the call
succeeds. -/
theorem C242_work {c : Cfg} (hl : Limits c) {g : St} {n : Net} (h : Reach c (Calm c) g n.st) {awake : Bool}
    (hw : (work n awake).waiting = true) :
    n.due ≤ n.st.now ∧ (∃ id i, n.st.sale id = some i ∧ i.paying) ∧ (step c n.st .distribute).isOk = true := by
  simp only [work, Bool.and_eq_true, Bool.not_eq_eq_eq_not, Bool.not_true, decide_eq_false_iff_not, Nat.not_lt] at hw
  obtain ⟨⟨_, h1⟩, h2⟩ := hw
  refine ⟨h1, ?_⟩
  cases hq : n.st.queue with
  | nil => rw [hq] at h2; cases h2
  | cons x rest =>
    obtain ⟨i, hi, hp⟩ := (C94_queue hl h (id := x)).mp (by rw [hq]; exact List.mem_cons_self)
    obtain ⟨s', _, _, hs, _⟩ := C94_progress hl h hq
    exact ⟨⟨x, i, hi, hp⟩, by rw [hs]; rfl⟩

/-- Account 32 also takes part, so that two payout calls are needed; the sale is being paid. -/
def sThree : St := exec cd g0 (setup 500 400 10 10 3 ++ [.act 1 (.mintAsset 5 32 7), .participate 30 0 25, .participate 31 0 10,
  .participate 32 0 7, .block, .block, .block])

theorem sThree_reach : Reach cd (Calm cd) g0 sThree := calm_demo (by decide +kernel)

/-- A block in which somebody pays with asset 5. -/
def busy : Blk := ⟨[.act 30 (.transfer 5 33 1)], true⟩

/-- Non-vacuity of C242: one contributor is left after the first payout call, and the second comes five blocks later. -/
example : ahead sThree.keys 0 sThree.queue = 4 ∧ (rounds cd 5 ⟨sThree, 0, false⟩ [busy]).waiting = true ∧
    (rounds cd 5 ⟨sThree, 0, false⟩ (List.replicate 2 busy)).st.keys 0 = [32] ∧
    (rounds cd 5 ⟨sThree, 0, false⟩ (List.replicate 7 busy)).st.keys 0 = [32] ∧
    (rounds cd 5 ⟨sThree, 0, false⟩ (List.replicate 8 busy)).st.keys 0 = [] := by decide +kernel

example : (rounds cd 5 ⟨sThree, 0, false⟩ (List.replicate 25 busy)).st.keys 0 = [] := by
  have hn : ahead sThree.keys 0 sThree.queue * (5 + 1) + max 1 (0 - sThree.now) ≤ (List.replicate 25 busy).length := by
    decide +kernel
  have hp : ∃ i, sThree.sale 0 = some i ∧ i.paying := (C94_queue cd_limits sThree_reach).mp (by decide +kernel)
  obtain ⟨i, hi, hp⟩ := hp
  refine (C242 cd_limits (by decide) sThree_reach 5 0 (List.replicate 25 busy) (fun b hb => ?_) hi hp hn).choose_spec.2.2
  rw [List.eq_of_mem_replicate hb]
  refine ⟨rfl, fun op hop => ?_⟩
  rw [List.mem_singleton.1 hop]
  exact ⟨fun s => calm_of (by decide), by decide⟩

end Verif.Crowdsale
